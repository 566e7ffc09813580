import Verif.Model.FloatRoe
import Verif.Lemmas.FloatRoeExact
import Verif.Lemmas.Binary64Error
import Verif.Lemmas.Express
import Mathlib.Algebra.Order.Group.MinMax

/-!
# Express matrices in double precision
-/

set_option linter.unusedSectionVars false
set_option linter.unusedVariables false

namespace Arctic

open Finset

namespace B64

variable (sum : List B64 → B64)

theorem round_err (q : ℚ) : |round q - q| ≤ |q| / 2 ^ 53 + 1 / 2 ^ 120 := by
  refine (round_error q).trans ?_
  have h1 : (2 : ℚ) ^ (-53 : ℤ) = 1 / 2 ^ 53 := by norm_num
  have h2 : (2 : ℚ) ^ (-1075 : ℤ) ≤ 1 / 2 ^ 120 := by
    have : (1 : ℚ) / 2 ^ 120 = 2 ^ (-120 : ℤ) := by norm_num
    rw [this]
    exact zpow_le_zpow_right₀ (by norm_num) (by norm_num)
  rw [h1, div_eq_mul_one_div |q|]
  exact add_le_add le_rfl h2

/-- The multiplier in double precision. -/
def mult (N e : ℕ) : ℚ := round ((N : ℚ) / e)

/-- `express_index * max_multiplier` -/
def start (N e k : ℕ) : ℚ := round (k * mult N e)

/-- An entry of the matrix before the first transfers are inserted. -/
def entry (N e k p : ℕ) : ℚ := truncate (mult N e) (round (((p + 1 : ℕ) : ℚ) - start N e k))

theorem val_truncate {m x : B64} {a b : ℚ} (hm : Val m a) (hx : Val x b) :
    Val (Fp.truncate (arith sum) m x) (truncate a b) := by
  have h0 : Val (if lt x zero then zero else x) (if b < 0 then 0 else b) := by
    rw [val_lt hx val_zero]
    by_cases h : b < 0
    · simp only [h, decide_true, if_true]; exact val_zero
    · simp only [h, decide_false, if_false]; exact hx
  unfold Fp.truncate truncate
  simp only
  change Val (if lt m (if lt x zero then zero else x) then m else (if lt x zero then zero else x)) _
  rw [val_lt hm h0]
  by_cases h : a < if b < 0 then 0 else b
  · simp only [gt_iff_lt, h, decide_true, if_true]; exact hm
  · simp only [gt_iff_lt, h, decide_false, if_false]; exact h0

section bounds
variable {N e k p : ℕ}

theorem mult_near (he : 0 < e) (hN : e ≤ N) : |mult N e - (N : ℚ) / e| ≤ (N : ℚ) / e / 2 ^ 53 + 1 / 2 ^ 120 := by
  have h := round_err ((N : ℚ) / e)
  rwa [abs_of_nonneg (a := (N : ℚ) / e) (by positivity)] at h

theorem ratio_bounds (he : 0 < e) (hN : e ≤ N) (hk : k < e) : 1 ≤ (N : ℚ) / e ∧ (N : ℚ) / e ≤ N ∧
    (k : ℚ) * ((N : ℚ) / e) + (N : ℚ) / e ≤ N := by
  have he' : (0 : ℚ) < e := by exact_mod_cast he
  have h1 : (1 : ℚ) ≤ e := by exact_mod_cast he
  have h2 : (e : ℚ) ≤ N := by exact_mod_cast hN
  have h3 : (k : ℚ) + 1 ≤ e := by exact_mod_cast hk
  refine ⟨by rw [le_div_iff₀ he']; linarith, div_le_self (by linarith) h1, ?_⟩
  have : (k : ℚ) * ((N : ℚ) / e) + (N : ℚ) / e = (k + 1) * N / e := by ring
  rw [this, div_le_iff₀ he', mul_comm]
  exact mul_le_mul_of_nonneg_left h3 (by linarith)

theorem mult_pos (he : 0 < e) (hN : e ≤ N) : 0 < mult N e := by
  obtain ⟨h1, -, -⟩ := ratio_bounds he hN he
  have := (abs_le.1 (mult_near he hN)).1
  have : (N : ℚ) / e * (1 - 1 / 2 ^ 53) - 1 / 2 ^ 120 ≤ mult N e := by linarith
  have : (1 : ℚ) * (1 - 1 / 2 ^ 53) ≤ (N : ℚ) / e * (1 - 1 / 2 ^ 53) := mul_le_mul_of_nonneg_right h1 (by norm_num)
  norm_num at *
  linarith

/-- The error of the product. -/
theorem start_near (he : 0 < e) (hN : e ≤ N) (hk : k < e) :
    |start N e k - k * ((N : ℚ) / e)| ≤ N * (5 / 2 ^ 54) ∧ |(k : ℚ) * mult N e| ≤ 2 * N := by
  obtain ⟨h1, h2, h3⟩ := ratio_bounds he hN hk
  have hm := mult_near he hN
  have hk0 : (0 : ℚ) ≤ k := by positivity
  have hkN : (k : ℚ) + 1 ≤ N := by exact_mod_cast hk.trans_le hN
  set m := (N : ℚ) / e
  have a1 : |(k : ℚ) * mult N e - k * m| ≤ (k * m) / 2 ^ 53 + k / 2 ^ 120 := by
    rw [← mul_sub, abs_mul, abs_of_nonneg hk0]
    have := mul_le_mul_of_nonneg_left hm hk0
    refine this.trans (le_of_eq ?_)
    ring
  have hK0 : 0 ≤ (k : ℚ) * m := by positivity
  have hKN : (k : ℚ) * m ≤ N := by linarith
  have a2 : |(k : ℚ) * mult N e| ≤ N * (1 + 1 / 2 ^ 52) := by
    have := abs_add_le ((k : ℚ) * m) (k * mult N e - k * m)
    rw [add_sub_cancel, abs_of_nonneg hK0] at this
    norm_num at *
    linarith
  have a3 := round_err ((k : ℚ) * mult N e)
  refine ⟨?_, by norm_num at *; linarith⟩
  have := abs_add_le (start N e k - k * mult N e) (k * mult N e - k * m)
  rw [sub_add_sub_cancel] at this
  refine this.trans ?_
  unfold start
  norm_num at *
  linarith

/-- The error of the difference. -/
theorem diff_near (he : 0 < e) (hN : e ≤ N) (hk : k < e) (hp : p < N) :
    |round (((p + 1 : ℕ) : ℚ) - start N e k) - (((p + 1 : ℕ) : ℚ) - k * ((N : ℚ) / e))| ≤ N * (1 / 2 ^ 51) ∧
      |((p + 1 : ℕ) : ℚ) - start N e k| ≤ 2 * N := by
  obtain ⟨h1, h2, h3⟩ := ratio_bounds he hN hk
  obtain ⟨hs, -⟩ := start_near he hN hk
  have hk0 : (0 : ℚ) ≤ k := by positivity
  have hp1 : ((p + 1 : ℕ) : ℚ) ≤ N := by exact_mod_cast hp
  have hp0 : (1 : ℚ) ≤ ((p + 1 : ℕ) : ℚ) := by exact_mod_cast Nat.succ_pos p
  set y := ((p + 1 : ℕ) : ℚ)
  set m := (N : ℚ) / e
  have hK0 : 0 ≤ (k : ℚ) * m := by positivity
  have hKN : (k : ℚ) * m ≤ N := by linarith
  have a1 : |y - start N e k| ≤ N * (1 + 5 / 2 ^ 54) := by
    obtain ⟨b1, b2⟩ := abs_le.1 hs
    rw [abs_le]
    constructor <;> norm_num at * <;> linarith
  have a2 := round_err (y - start N e k)
  refine ⟨?_, by norm_num at *; linarith⟩
  have := abs_add_le (round (y - start N e k) - (y - start N e k)) (k * m - start N e k)
  rw [show round (y - start N e k) - (y - start N e k) + (k * m - start N e k) =
    round (y - start N e k) - (y - k * m) by ring, abs_sub_comm (k * m)] at this
  refine this.trans ?_
  norm_num at *
  linarith

/-- Every entry is near the exact one. -/
theorem entry_near (he : 0 < e) (hN : e ≤ N) (hk : k < e) (hp : p < N) :
    |entry N e k p - (expressBase (K := ℚ) false N e).e k p| ≤ N * (1 / 2 ^ 51) := by
  unfold entry expressBase
  simp only
  have hm0 : (0 : ℚ) ≤ maxMultiplier false N e := maxMultiplier_nonneg false N e
  rw [truncate_eq _ _ (mult_pos he hN).le, truncate_eq _ _ hm0]
  have hmm : maxMultiplier (K := ℚ) false N e = (N : ℚ) / e := rfl
  rw [hmm]
  refine (abs_min_sub_min_le_max _ _ _ _).trans (max_le ?_ ?_)
  · refine (mult_near he hN).trans ?_
    obtain ⟨h1, h2, -⟩ := ratio_bounds he hN hk
    norm_num at *
    linarith
  · refine (abs_max_sub_max_le_max _ _ _ _).trans (max_le ?_ (diff_near he hN hk hp).1)
    rw [sub_self, abs_zero]
    positivity

theorem entry_nonneg (he : 0 < e) (hN : e ≤ N) : 0 ≤ entry N e k p ∧ entry N e k p ≤ mult N e := by
  unfold entry
  rw [truncate_eq _ _ (mult_pos he hN).le]
  exact ⟨le_min (mult_pos he hN).le (le_max_left _ _), min_le_left _ _⟩

end bounds

/-- The matrix of the code in double precision. -/
def baseMat (N e : ℕ) : Mat B64 := Fp.expressBase (arith sum) conv.int (div (conv.int N) (conv.int e)) N e

theorem val_nat {n : ℕ} (h : n ≤ 2 ^ 53) : Val (conv.int (n : ℤ)) n := by
  have := val_int (z := (n : ℤ)) (by rw [abs_of_nonneg (by positivity)]; exact_mod_cast h)
  exact_mod_cast this

theorem small_bound {N : ℕ} (hN : N ≤ 2 ^ 53) {q : ℚ} (h : |q| ≤ 2 * N) : |round q| < limit := by
  apply round_bound
  have h1 : (N : ℚ) ≤ 2 ^ 53 := by exact_mod_cast hN
  have h2 : (2 : ℚ) ^ 54 ≤ 2 ^ 1000 := pow_le_pow_right₀ (by norm_num) (by norm_num)
  have h3 : (2 : ℚ) * 2 ^ 53 = 2 ^ 54 := by norm_num
  generalize (2 : ℚ) ^ 1000 = y at *
  linarith

theorem val_mult {N e : ℕ} (he : 0 < e) (hN : e ≤ N) (hb : N ≤ 2 ^ 53) :
    Val (div (conv.int N) (conv.int e)) (mult N e) := by
  refine val_div (val_nat hb) (val_nat (hN.trans hb)) (by exact_mod_cast he.ne') (small_bound hb ?_)
  obtain ⟨h1, h2, -⟩ := ratio_bounds he hN he
  rw [abs_of_nonneg (by linarith)]
  have : (0 : ℚ) ≤ N := by positivity
  linarith

theorem val_start {N e k : ℕ} (he : 0 < e) (hN : e ≤ N) (hb : N ≤ 2 ^ 53) (hk : k < e) :
    Val (mul (conv.int k) (div (conv.int N) (conv.int e))) (start N e k) :=
  val_mul (val_nat ((hk.le.trans hN).trans hb)) (val_mult he hN hb) (small_bound hb (start_near he hN hk).2)

theorem val_base {N e k p : ℕ} (he : 0 < e) (hN : e ≤ N) (hb : N ≤ 2 ^ 53) (hk : k < e) (hp : p < N) :
    Val ((baseMat sum N e).e k p) (entry N e k p) :=
  val_truncate sum (val_mult he hN hb)
    (val_sub (val_nat ((Nat.succ_le_of_lt hp).trans hb)) (val_start he hN hb hk) (small_bound hb (diff_near he hN hk hp).2))

/-! ### which entries are positive -/

theorem entry_pos_iff {N e k p : ℕ} (he : 0 < e) (hN : e ≤ N) (hb : N ≤ 2 ^ 53) (hk : k < e) (hp : p < N) :
    0 < entry N e k p ↔ start N e k < ((p + 1 : ℕ) : ℚ) := by
  unfold entry
  rw [truncate_eq _ _ (mult_pos he hN).le, lt_min_iff, lt_max_iff]
  simp only [mult_pos he hN, lt_irrefl, false_or, true_and]
  exact round_sub_pos (val_nat ((Nat.succ_le_of_lt hp).trans hb)).rep (val_start he hN hb hk).rep

/-- The starts are at least one pixel apart. -/
theorem start_gap {N e k k' : ℕ} (he : 0 < e) (hN : e < N) (hb : N ≤ 2 ^ 25) (hk : k < k') (hk' : k' < e) :
    start N e k + 1 ≤ start N e k' := by
  have h1 := (abs_le.1 (start_near he hN.le (hk.trans hk')).1).2
  have h2 := (abs_le.1 (start_near he hN.le hk').1).1
  have he' : (0 : ℚ) < e := by exact_mod_cast he
  have hkk : (k : ℚ) + 1 ≤ k' := by exact_mod_cast hk
  have hNe : (e : ℚ) + 1 ≤ N := by exact_mod_cast hN
  have hb' : (N : ℚ) ≤ 2 ^ 25 := by exact_mod_cast hb
  have hm : 1 + 1 / (e : ℚ) ≤ (N : ℚ) / e := by
    have : 1 + 1 / (e : ℚ) = (e + 1) / e := by rw [add_div, div_self he'.ne']
    rw [this]
    exact div_le_div_of_nonneg_right hNe he'.le
  have h4 : (N : ℚ) * (10 / 2 ^ 54) ≤ 1 / e := by
    rw [le_div_iff₀ he']
    have h6 : (e : ℚ) ≤ 2 ^ 25 := by linarith
    have : (N : ℚ) * e ≤ 2 ^ 25 * 2 ^ 25 := mul_le_mul hb' h6 he'.le (by norm_num)
    have h7 : (N : ℚ) * (10 / 2 ^ 54) * e = N * e * (10 / 2 ^ 54) := by ring
    rw [h7]
    norm_num at *
    linarith
  have h5 : (k : ℚ) * ((N : ℚ) / e) + (N : ℚ) / e ≤ k' * ((N : ℚ) / e) := by
    have : ((k : ℚ) + 1) * ((N : ℚ) / e) ≤ k' * ((N : ℚ) / e) :=
      mul_le_mul_of_nonneg_right hkk (by positivity)
    linarith
  have h6 : (N : ℚ) * (10 / 2 ^ 54) = N * (5 / 2 ^ 54) + N * (5 / 2 ^ 54) := by ring
  linarith

/-- The values. -/
def baseVal (N e : ℕ) : Mat ℚ := ⟨e, N, fun k p => entry N e k p⟩

theorem nNonzero_base {N e k : ℕ} (he : 0 < e) (hN : e ≤ N) (hb : N ≤ 2 ^ 53) (hk : k < e) :
    Fp.nNonzero (arith sum) (baseMat sum N e) k = nNonzero (baseVal N e) k := by
  unfold Fp.nNonzero nNonzero
  congr 1
  refine List.filter_congr fun j hj => ?_
  have hj : j < N := List.mem_range.1 hj
  exact val_lt val_zero (val_base sum he hN hb hk hj)

theorem base_lt {N e k k' : ℕ} (he : 0 < e) (hN : e < N) (hb : N ≤ 2 ^ 25) (hk : k < k') (hk' : k' < e)
    (hpos : 0 < nNonzero (baseVal N e) k') : nNonzero (baseVal N e) k' < nNonzero (baseVal N e) k := by
  have hb' : N ≤ 2 ^ 53 := hb.trans (by norm_num)
  rw [nNonzero_eq_card] at hpos ⊢
  rw [nNonzero_eq_card]
  have gap := start_gap he hN hb hk hk'
  obtain ⟨p, hp⟩ := Finset.card_pos.1 hpos
  let s := (range N).filter fun j => (baseVal N e).e k' j > 0
  have hs : s.Nonempty := ⟨p, hp⟩
  let q := s.min' hs
  have hq : q ∈ s := s.min'_mem hs
  have hq' := Finset.mem_filter.1 hq
  have hqN := Finset.mem_range.1 hq'.1
  have hq2 := (entry_pos_iff he hN.le hb' hk' hqN).1 hq'.2
  have hst : 0 ≤ start N e k := by
    unfold start
    have h0 : 0 ≤ (k : ℚ) * mult N e := mul_nonneg (by positivity) (mult_pos he hN.le).le
    unfold round
    split
    · exact le_rfl
    · rw [if_neg (not_lt.2 h0)]
      exact roundPos_nonneg h0
  have hq1 : 1 ≤ q := by
    by_contra hc
    have : q = 0 := by omega
    rw [this] at hq2
    push_cast at hq2
    linarith
  apply Finset.card_lt_card
  refine ⟨fun j hj => ?_, fun hsub => ?_⟩
  · rw [Finset.mem_filter] at hj ⊢
    have hjN := Finset.mem_range.1 hj.1
    refine ⟨hj.1, (entry_pos_iff he hN.le hb' (hk.trans hk') hjN).2 ?_⟩
    have := (entry_pos_iff he hN.le hb' hk' hjN).1 hj.2
    linarith
  · have hmem : q - 1 ∈ (range N).filter fun j => (baseVal N e).e k j > 0 := by
      rw [Finset.mem_filter]
      refine ⟨Finset.mem_range.2 (by omega), (entry_pos_iff he hN.le hb' (hk.trans hk') (by omega)).2 ?_⟩
      have hc : ((q - 1 + 1 : ℕ) : ℚ) = ((q + 1 : ℕ) : ℚ) - 1 := by
        rw [Nat.sub_add_cancel hq1]; push_cast; ring
      rw [hc]
      linarith
    have h2 := hsub hmem
    have h3 : q ≤ q - 1 := s.min'_le _ h2
    omega

theorem baseVal_dup {N e j : ℕ} (he : 0 < e) (hN : e < N) (hb : N ≤ 2 ^ 25) (hj : j < N) :
    ∀ k k', k < k' → k' < (baseVal N e).nr → nNonzero (baseVal N e) k = nNonzero (baseVal N e) k' →
      (baseVal N e).e k j = 0 := by
  intro k k' hk hk' heq
  by_cases h0 : nNonzero (baseVal N e) k' = 0
  · rw [h0, nNonzero_eq_card, Finset.card_eq_zero] at heq
    have h2 : j ∉ ((range N).filter fun j => (baseVal N e).e k j > 0) := by
      change j ∉ ((range (baseVal N e).nc).filter _)
      rw [heq]; simp
    rw [Finset.mem_filter] at h2
    have h3 : ¬ (baseVal N e).e k j > 0 := fun hc => h2 ⟨Finset.mem_range.2 hj, hc⟩
    exact le_antisymm (not_lt.1 h3) (entry_nonneg he hN.le).1
  · have := base_lt he hN hb hk hk' (Nat.pos_of_ne_zero h0)
    omega

/-- The column just before the positive ones is zero. -/
theorem before_zero {N e k p : ℕ} (he : 0 < e) (hN : e ≤ N) (hb : N ≤ 2 ^ 53) (hk : k < e) (hp : p < N)
    (h : nNonzero (baseVal N e) k + p + 1 = N) : entry N e k p = 0 := by
  by_contra hc
  have hpos : 0 < entry N e k p := lt_of_le_of_ne (entry_nonneg he hN).1 (Ne.symm hc)
  have h1 := (entry_pos_iff he hN hb hk hp).1 hpos
  have h2 : (range N).filter (fun j => p ≤ j) ⊆ (range N).filter fun j => (baseVal N e).e k j > 0 := by
    intro j hj
    rw [Finset.mem_filter] at hj ⊢
    refine ⟨hj.1, (entry_pos_iff he hN hb hk (Finset.mem_range.1 hj.1)).2 (h1.trans_le ?_)⟩
    exact_mod_cast Nat.succ_le_succ hj.2
  have h3 := Finset.card_le_card h2
  have h4 : ((range N).filter (fun j => p ≤ j)).card = N - p := by
    have : (range N).filter (fun j => p ≤ j) = Finset.Ico p N := by
      ext j
      simp [and_comm]
    rw [this]
    simp
  rw [h4] at h3
  have h5 : nNonzero (baseVal N e) k = ((range N).filter fun j => (baseVal N e).e k j > 0).card := nNonzero_eq_card _ _
  omega

/-- Insertion of the first transfers, in double precision: all additions are exact. -/
theorem val_insert {N e : ℕ} (he : 0 < e) (hN : e < N) (hb : N ≤ 2 ^ 25) (i j : ℕ) (hj : j < N + 1) :
    Val ((Fp.insertRows (arith sum) (Fp.flipIdentity (arith sum) (N + 1)) (baseMat sum N e)).e i j)
      ((insertRows (flipIdentity (N + 1)) (baseVal N e)).e i j) := by
  have hb' : N ≤ 2 ^ 53 := hb.trans (by norm_num)
  have hid : ∀ i j, Val ((Fp.flipIdentity (arith sum) (N + 1)).e i j) ((flipIdentity (K := ℚ) (N + 1)).e i j) := by
    intro i j
    unfold Fp.flipIdentity flipIdentity
    simp only
    split
    · exact val_one
    · exact val_zero
  unfold Fp.insertRows insertRows
  simp only
  have : ∀ (l : List ℕ), (∀ k ∈ l, k < e) → ∀ (cur : ℕ → ℕ → B64) (cur' : ℕ → ℕ → ℚ), Val (cur i j) (cur' i j) →
      Val (l.foldl (fun cur k => fun i j =>
        if i = Fp.nNonzero (arith sum) (baseMat sum N e) k ∧ 1 ≤ j then
          (arith sum).add ((Fp.flipIdentity (arith sum) (N + 1)).e i j) ((baseMat sum N e).e k (j - 1)) else cur i j) cur i j)
      (l.foldl (fun cur k => fun i j =>
        if i = nNonzero (baseVal N e) k ∧ 1 ≤ j then
          (flipIdentity (K := ℚ) (N + 1)).e i j + (baseVal N e).e k (j - 1) else cur i j) cur' i j) := by
    intro l
    induction l with
    | nil => intro _ cur cur' h; exact h
    | cons k l ih =>
      intro hl cur cur' h
      rw [List.foldl_cons, List.foldl_cons]
      refine ih (fun k hk => hl k (List.mem_cons_of_mem _ hk)) _ _ ?_
      have hk := hl k List.mem_cons_self
      simp only [nNonzero_base sum he hN.le hb' hk]
      split
      · rename_i hc
        obtain ⟨hc, h1⟩ := hc
        have hv := val_base sum he hN.le hb' hk (p := j - 1) (by omega)
        have hadd : round ((flipIdentity (K := ℚ) (N + 1)).e i j + entry N e k (j - 1)) =
            (flipIdentity (K := ℚ) (N + 1)).e i j + entry N e k (j - 1) := by
          unfold flipIdentity
          simp only
          split
          · rename_i hij
            rw [before_zero he hN.le hb' hk (by omega) (by omega), add_zero]
            exact val_one.rep.1
          · rw [zero_add]
            exact hv.rep.1
        have hlim : |round ((flipIdentity (K := ℚ) (N + 1)).e i j + entry N e k (j - 1))| < limit := by
          rw [hadd]
          unfold flipIdentity
          simp only
          split
          · rename_i hij
            rw [before_zero he hN.le hb' hk (by omega) (by omega), add_zero]
            exact val_one.rep.2
          · rw [zero_add]
            exact hv.rep.2
        have := val_add (hid i j) hv hlim
        rw [hadd] at this
        exact this
      · exact h
  exact this _ (fun k hk => List.mem_range.1 hk) _ _ (hid i j)

/-- The sum of a column. -/
theorem sum_baseVal {N e p : ℕ} (he : 0 < e) (hN : e ≤ N) (hp : p < N) :
    |∑ k ∈ range e, entry N e k p - ((p : ℚ) + 1)| ≤ e * (N * (1 / 2 ^ 51)) := by
  rw [← sum_expressBase (K := ℚ) false N e p he hp, ← Finset.sum_sub_distrib]
  refine (Finset.abs_sum_le_sum_abs _ _).trans ?_
  refine (Finset.sum_le_card_nsmul _ _ _ fun k hk => entry_near he hN (Finset.mem_range.1 hk) hp).trans ?_
  rw [Finset.card_range, nsmul_eq_mul]

theorem sum_insertVal {N e p : ℕ} (he : 0 < e) (hN : e < N) (hb : N ≤ 2 ^ 25) (hp : p < N + 1) :
    |∑ i ∈ range (N + 1), (insertRows (flipIdentity (N + 1)) (baseVal N e)).e i p - ((p : ℚ) + 1)| ≤
      e * (N * (1 / 2 ^ 51)) := by
  rcases p with _ | p
  · simp_rw [insertRows_col0]
    rw [sum_flipIdentity _ _ hp]
    simp only [Nat.cast_zero, zero_add, sub_self, abs_zero]
    positivity
  · have := sum_insertRows (K := ℚ) (flipIdentity (N + 1)) (baseVal N e) p (baseVal_dup he hN hb (by omega))
      (by change N < N + 1; omega)
    change ∑ k ∈ range (N + 1), _ = ∑ k ∈ range (N + 1), _ + ∑ k ∈ range e, _ at this
    rw [this, sum_flipIdentity _ _ hp]
    have h := sum_baseVal he hN.le (p := p) (by omega)
    have e1 : 1 + ∑ k ∈ range e, (baseVal N e).e k p - (((p + 1 : ℕ) : ℚ) + 1) =
        ∑ k ∈ range e, entry N e k p - ((p : ℚ) + 1) := by
      change 1 + ∑ k ∈ range e, entry N e k p - _ = _
      push_cast
      ring
    rw [e1]
    exact h

/-! ### exact cases -/

/-- If `express` divides the number of transfers then nothing is rounded. -/
theorem entry_dvd {N e k p : ℕ} (he : 0 < e) (hN : e ≤ N) (hb : N ≤ 2 ^ 53) (hk : k < e) (hp : p < N) (hd : e ∣ N) :
    entry N e k p = (expressBase (K := ℚ) false N e).e k p := by
  obtain ⟨c, rfl⟩ := hd
  have he' : (e : ℚ) ≠ 0 := by exact_mod_cast he.ne'
  have hr : ((e * c : ℕ) : ℚ) / e = (c : ℕ) := by push_cast; rw [mul_div_cancel_left₀ _ he']
  have hc : c ≤ 2 ^ 53 := (Nat.le_mul_of_pos_left c he).trans hb
  have hm : mult (e * c) e = c := by
    unfold mult
    rw [hr]
    exact (val_nat hc).rep.1
  have hkc : k * c ≤ e * c := Nat.mul_le_mul_right _ hk.le
  have hs : start (e * c) e k = (k * c : ℕ) := by
    unfold start
    rw [hm, ← Nat.cast_mul]
    exact (val_nat (hkc.trans hb)).rep.1
  have hz : round (((p + 1 : ℕ) : ℚ) - ((k * c : ℕ) : ℚ)) = ((p + 1 : ℕ) : ℚ) - ((k * c : ℕ) : ℚ) := by
    have := round_int (z := ((p + 1 : ℕ) : ℤ) - ((k * c : ℕ) : ℤ)) (by
      rw [abs_le]
      have h1 : ((p + 1 : ℕ) : ℤ) ≤ 2 ^ 53 := by exact_mod_cast (Nat.succ_le_of_lt hp).trans hb
      have h2 : ((k * c : ℕ) : ℤ) ≤ 2 ^ 53 := by exact_mod_cast hkc.trans hb
      have h3 : (0 : ℤ) ≤ ((p + 1 : ℕ) : ℤ) := by positivity
      have h4 : (0 : ℤ) ≤ ((k * c : ℕ) : ℤ) := by positivity
      constructor <;> linarith)
    simpa using this
  unfold entry expressBase
  simp only
  rw [hs, hm, hz]
  have hmm : maxMultiplier (K := ℚ) false (e * c) e = c := hr
  rw [hmm]
  push_cast
  rfl

/-- `int(np.ceil(N / e))` is exact. -/
theorem ceilDiv_exact {N e : ℕ} (he : 0 < e) (hN' : e ≤ N) (hb : N < 2 ^ 53) : conv.ceilDiv N e = ((N ⌈/⌉ e : ℕ) : ℤ) := by
  change ⌈round ((N : ℚ) / e)⌉ = _
  have he' : (0 : ℚ) < e := by exact_mod_cast he
  have hb' : (N : ℚ) < 2 ^ 53 := by exact_mod_cast hb
  have hb2 : (N : ℚ) + 1 ≤ 2 ^ 53 := by exact_mod_cast hb
  by_cases hd : e ∣ N
  · obtain ⟨c, rfl⟩ := hd
    have hr : ((e * c : ℕ) : ℚ) / e = (c : ℕ) := by push_cast; rw [mul_div_cancel_left₀ _ he'.ne']
    have hc : c ≤ 2 ^ 53 := (Nat.le_mul_of_pos_left c he).trans hb.le
    rw [hr, (val_nat hc).rep.1, Int.ceil_natCast]
    congr 1
    rw [Nat.ceilDiv_eq_add_pred_div]
    rw [show e * c + e - 1 = (e - 1) + e * c by omega, Nat.add_mul_div_left _ _ he, Nat.div_eq_of_lt (by omega)]
    omega
  · set q := N / e with hq
    set r := N % e with hr
    have hN : N = e * q + r := (Nat.div_add_mod N e).symm
    have hr1 : 1 ≤ r := Nat.one_le_iff_ne_zero.2 fun h => hd (Nat.dvd_of_mod_eq_zero h)
    have hre : r + 1 ≤ e := Nat.mod_lt _ he
    have h1 : (N : ℚ) / e = q + r / e := by
      rw [hN]; push_cast; field_simp
    have hlo : (1 : ℚ) / e ≤ r / e := div_le_div_of_nonneg_right (by exact_mod_cast hr1) he'.le
    have hhi : (r : ℚ) / e ≤ 1 - 1 / e := by
      have : (r : ℚ) ≤ e - 1 := by
        have : (r : ℚ) + 1 ≤ e := by exact_mod_cast hre
        linarith
      have := div_le_div_of_nonneg_right this he'.le
      rwa [sub_div, div_self he'.ne'] at this
    have herr := round_err ((N : ℚ) / e)
    rw [abs_of_nonneg (a := (N : ℚ) / e) (by positivity)] at herr
    have hsmall : (N : ℚ) / e / 2 ^ 53 + 1 / 2 ^ 120 < 1 / e := by
      have hNe : (e : ℚ) ≤ N := by exact_mod_cast hN'
      rw [lt_div_iff₀ he', add_mul, div_right_comm, div_mul_cancel₀ _ he'.ne']
      norm_num at hb2 ⊢
      linarith
    obtain ⟨g1, g2⟩ := abs_le.1 herr
    have hceil : ⌈round ((N : ℚ) / e)⌉ = (q : ℤ) + 1 := by
      rw [Int.ceil_eq_iff]
      push_cast
      constructor <;> linarith
    rw [hceil, Nat.ceilDiv_eq_add_pred_div]
    have : N + e - 1 = (r - 1) + e * (q + 1) := by rw [mul_add]; omega
    rw [this, Nat.add_mul_div_left _ _ he, Nat.div_eq_of_lt (by omega)]
    push_cast
    ring

end B64
end Arctic
