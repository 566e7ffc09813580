import Verif.Model.Binary64
import Verif.Lemmas.FloatSafe
import Mathlib.Tactic.Linarith
import Mathlib.Tactic.Positivity
import Mathlib.Tactic.NormNum
import Mathlib.Algebra.Order.Field.Power

/-!
# Double precision is a lawful arithmetic
-/

set_option linter.unusedSectionVars false
set_option linter.unusedVariables false
set_option linter.unusedSimpArgs false
set_option linter.unnecessarySimpa false

namespace Arctic

namespace B64

/-! ### rounding -/

theorem two_zpow_pos (e : ℤ) : (0 : ℚ) < 2 ^ e := by positivity

theorem log2_spec {q : ℚ} (hq : 0 < q) : (2 : ℚ) ^ log2 q ≤ q ∧ q < 2 ^ (log2 q + 1) := by
  have hn : q.num.natAbs ≠ 0 := by
    have := Rat.num_pos.2 hq; omega
  have h1 := Nat.log2_self_le hn
  have h2 : q.num.natAbs < 2 ^ (Nat.log2 q.num.natAbs + 1) := Nat.lt_log2_self
  have h3 := Nat.log2_self_le q.den_nz
  have h4 : q.den < 2 ^ (Nat.log2 q.den + 1) := Nat.lt_log2_self
  unfold log2
  simp only
  generalize Nat.log2 q.num.natAbs = a at *
  generalize Nat.log2 q.den = b at *
  have hnum : (q.num.natAbs : ℚ) = q * q.den := by
    have h5 : (q.num.natAbs : ℤ) = q.num := Int.natAbs_of_nonneg (Rat.num_pos.2 hq).le
    rw [Rat.mul_den_eq_num, ← h5]
    exact (Int.cast_natCast _).symm
  have hd : (0 : ℚ) < q.den := by exact_mod_cast q.den_pos
  have g1 : (2 : ℚ) ^ a ≤ q * q.den := by rw [← hnum]; exact_mod_cast h1
  have g2 : q * q.den < 2 ^ (a + 1) := by rw [← hnum]; exact_mod_cast h2
  have g3 : (2 : ℚ) ^ b ≤ q.den := by exact_mod_cast h3
  have g4 : (q.den : ℚ) < 2 ^ (b + 1) := by exact_mod_cast h4
  have e1 : (2 : ℚ) ^ ((a : ℤ) - b) * 2 ^ b = 2 ^ a := by
    rw [← zpow_natCast, ← zpow_natCast, ← zpow_add₀ (by norm_num)]; congr 1; ring
  have lo : (2 : ℚ) ^ ((a : ℤ) - b) < 2 * q := by
    have : (2 : ℚ) ^ ((a : ℤ) - b) * 2 ^ b < 2 * q * 2 ^ b := by
      rw [e1]
      calc (2 : ℚ) ^ a ≤ q * q.den := g1
        _ < q * 2 ^ (b + 1) := by exact mul_lt_mul_of_pos_left g4 hq
        _ = 2 * q * 2 ^ b := by ring
    exact lt_of_mul_lt_mul_right this (by positivity)
  have hi : q < 2 * (2 : ℚ) ^ ((a : ℤ) - b) := by
    have : q * 2 ^ b < 2 * (2 : ℚ) ^ ((a : ℤ) - b) * 2 ^ b := by
      rw [mul_assoc, e1]
      calc q * 2 ^ b ≤ q * q.den := by exact mul_le_mul_of_nonneg_left g3 hq.le
        _ < 2 ^ (a + 1) := g2
        _ = 2 * 2 ^ a := by ring
    exact lt_of_mul_lt_mul_right this (by positivity)
  split
  · rename_i h
    exact ⟨h, by rw [zpow_add_one₀ (by norm_num)]; linarith⟩
  · rename_i h
    rw [sub_add_cancel]
    refine ⟨?_, not_le.1 h⟩
    rw [zpow_sub_one₀ (by norm_num)]
    linarith

theorem log2_unique {q : ℚ} {e : ℤ} (h1 : (2 : ℚ) ^ e ≤ q) (h2 : q < 2 ^ (e + 1)) : log2 q = e := by
  have hq : 0 < q := lt_of_lt_of_le (two_zpow_pos e) h1
  obtain ⟨g1, g2⟩ := log2_spec hq
  have a := (zpow_lt_zpow_iff_right₀ (by norm_num : (1 : ℚ) < 2)).1 (g1.trans_lt h2)
  have b := (zpow_lt_zpow_iff_right₀ (by norm_num : (1 : ℚ) < 2)).1 (h1.trans_lt g2)
  omega

theorem log2_lt {q : ℚ} (hq : 0 < q) {e : ℤ} (h : q < 2 ^ e) : log2 q < e :=
  (zpow_lt_zpow_iff_right₀ (by norm_num : (1 : ℚ) < 2)).1 ((log2_spec hq).1.trans_lt h)

theorem toInt_int (n : ℤ) : toInt (n : ℚ) = n := by
  unfold toInt
  simp only [Int.floor_intCast, sub_self]
  rw [if_pos (by norm_num)]

theorem toInt_near (x : ℚ) : (toInt x : ℚ) - 1 / 2 ≤ x ∧ x ≤ toInt x + 1 / 2 := by
  have h1 := Int.floor_le x
  have h2 := Int.lt_floor_add_one x
  unfold toInt
  simp only
  split_ifs <;> push_cast <;> constructor <;> linarith

theorem toInt_nonneg {x : ℚ} (h : 0 ≤ x) : 0 ≤ toInt x := by
  have := (toInt_near x).2
  have h2 : (-1 : ℚ) < toInt x := by linarith
  have h3 : (-1 : ℤ) < toInt x := by exact_mod_cast h2
  omega

theorem toInt_le {x : ℚ} {n : ℤ} (h : x < n) : toInt x ≤ n := by
  have := (toInt_near x).1
  have h2 : (toInt x : ℚ) < n + 1 := by linarith
  have h3 : toInt x < n + 1 := by exact_mod_cast h2
  omega

theorem ulpExp_ge (q : ℚ) : -1074 ≤ ulpExp q := by
  unfold ulpExp
  have := le_max_right (log2 q) (-1022)
  omega

theorem roundPos_nonneg {q : ℚ} (h : 0 ≤ q) : 0 ≤ roundPos q := by
  unfold roundPos
  have : (0 : ℚ) ≤ toInt (q / 2 ^ ulpExp q) := by exact_mod_cast toInt_nonneg (by positivity)
  positivity

theorem roundPos_int {q : ℚ} (n : ℤ) (h : q = n * 2 ^ ulpExp q) : roundPos q = q := by
  unfold roundPos
  have hp := (two_zpow_pos (ulpExp q)).ne'
  have : q / 2 ^ ulpExp q = n := by
    rw [div_eq_iff hp]; exact h
  rw [this, toInt_int, ← h]

/-- Rounding twice is rounding once. -/
theorem roundPos_roundPos {q : ℚ} (hq : 0 < q) : roundPos q = 0 ∨ roundPos (roundPos q) = roundPos q := by
  obtain ⟨-, h2⟩ := log2_spec hq
  by_cases h0 : roundPos q = 0
  · exact Or.inl h0
  right
  have hpos : 0 < roundPos q := lt_of_le_of_ne (roundPos_nonneg hq.le) (Ne.symm h0)
  set u := ulpExp q with hu
  set m := toInt (q / 2 ^ u) with hm
  have hr : roundPos q = m * 2 ^ u := rfl
  have hu1 := ulpExp_ge q
  have hu2 : log2 q ≤ u + 52 := by
    rw [hu]; unfold ulpExp
    have := le_max_left (log2 q) (-1022)
    omega
  have hlt : q / 2 ^ u < ((2 ^ 53 : ℤ) : ℚ) := by
    rw [div_lt_iff₀ (two_zpow_pos u)]
    calc q < 2 ^ (log2 q + 1) := h2
      _ ≤ (2 : ℚ) ^ (53 + u) := zpow_le_zpow_right₀ (by norm_num) (by omega)
      _ = ((2 ^ 53 : ℤ) : ℚ) * 2 ^ u := by rw [zpow_add₀ (by norm_num)]; norm_num
  have hm2 : m ≤ 2 ^ 53 := toInt_le hlt
  rcases Int.lt_or_eq_of_le hm2 with hm3 | hm3
  · -- fewer than 53 bits
    have : roundPos q < 2 ^ (53 + u) := by
      rw [hr, zpow_add₀ (by norm_num)]
      have : (m : ℚ) < 2 ^ (53 : ℤ) := by
        have : (m : ℚ) < ((2 ^ 53 : ℤ) : ℚ) := by exact_mod_cast hm3
        norm_num at this ⊢; exact this
      exact mul_lt_mul_of_pos_right this (two_zpow_pos u)
    have hl := log2_lt hpos this
    have hle : ulpExp (roundPos q) ≤ u := by
      unfold ulpExp
      have := max_le (a := log2 (roundPos q)) (b := -1022) (c := u + 52) (by omega) (by omega)
      omega
    refine roundPos_int (m * 2 ^ (u - ulpExp (roundPos q)).toNat) ?_
    have hz : ((2 : ℚ) ^ (u - ulpExp (roundPos q)).toNat) = 2 ^ (u - ulpExp (roundPos q)) := by
      rw [← zpow_natCast, Int.toNat_of_nonneg (by omega)]
    push_cast
    rw [hz, mul_assoc, ← zpow_add₀ (by norm_num), sub_add_cancel]
    exact hr
  · -- a power of two
    have hpow : roundPos q = 2 ^ (53 + u) := by
      rw [hr, hm3, zpow_add₀ (by norm_num)]; norm_num
    have hl : log2 (roundPos q) = 53 + u :=
      log2_unique hpow.ge (by rw [hpow]; exact zpow_lt_zpow_right₀ (by norm_num) (by omega))
    have hue : ulpExp (roundPos q) = u + 1 := by
      unfold ulpExp
      rw [hl, max_eq_left (by omega)]; ring
    refine roundPos_int (2 ^ 52) ?_
    rw [hue]
    nth_rewrite 1 [hpow]
    push_cast
    rw [show (4503599627370496 : ℚ) = 2 ^ (52 : ℤ) by norm_num, ← zpow_add₀ (by norm_num)]
    congr 1; ring

theorem round_round (q : ℚ) : round (round q) = round q := by
  unfold round
  by_cases h0 : q = 0
  · simp [h0]
  rcases lt_or_gt_of_ne h0 with h | h
  · simp only [h0, if_false, h, if_true]
    have hn : 0 < -q := by linarith
    have h1 := roundPos_nonneg hn.le
    rcases roundPos_roundPos hn with h2 | h2
    · simp [h2]
    · by_cases hz : roundPos (-q) = 0
      · simp [hz]
      · have hlt : -roundPos (-q) < 0 := by
          have := lt_of_le_of_ne h1 (Ne.symm hz); linarith
        rw [if_neg hlt.ne, if_pos hlt, neg_neg, h2]
  · simp only [h0, if_false, not_lt.2 h.le]
    have h1 := roundPos_nonneg h.le
    rcases roundPos_roundPos h with h2 | h2
    · simp [h2]
    · by_cases hz : roundPos q = 0
      · simp [hz]
      · rw [if_neg hz, if_neg (not_lt.2 h1), h2]

/-- What `pack` stores is a double unless it is too large. -/
theorem rep_round (q : ℚ) : Rep (round q) ↔ |round q| < limit := ⟨fun h => h.2, fun h => ⟨round_round q, h⟩⟩

theorem round_neg (q : ℚ) : round (-q) = -round q := by
  unfold round
  rcases lt_trichotomy q 0 with h | h | h
  · rw [if_neg (by linarith), if_neg (by linarith), if_neg h.ne, if_pos h, neg_neg]
  · simp [h]
  · rw [if_neg (by linarith), if_pos (by linarith), if_neg h.ne', if_neg (by linarith), neg_neg]

theorem Rep.neg {q : ℚ} (h : Rep q) : Rep (-q) := ⟨by rw [round_neg, h.1], by rw [abs_neg]; exact h.2⟩

theorem pack_rep {q : ℚ} (h : Rep q) : pack q = .fin q h := by
  unfold pack
  have hr : Rep (round q) := by rw [h.1]; exact h
  rw [if_neg (by rintro ⟨h1, h2⟩; rw [h.1] at h1; linarith), dif_pos hr]
  congr 1; exact h.1

/-- Every finite double is a multiple of the least one. -/
theorem Rep.multiple {q : ℚ} (h : Rep q) : ∃ n : ℤ, q = n * 2 ^ (-1074 : ℤ) := by
  have pos : ∀ x : ℚ, ∃ n : ℤ, roundPos x = n * 2 ^ (-1074 : ℤ) := by
    intro x
    refine ⟨toInt (x / 2 ^ ulpExp x) * 2 ^ (ulpExp x + 1074).toNat, ?_⟩
    have hz : ((2 : ℚ) ^ (ulpExp x + 1074).toNat) = 2 ^ (ulpExp x + 1074) := by
      rw [← zpow_natCast, Int.toNat_of_nonneg (by have := ulpExp_ge x; omega)]
    push_cast
    rw [hz, mul_assoc, ← zpow_add₀ (by norm_num)]
    unfold roundPos
    congr 2; ring
  rw [← h.1]
  unfold round
  split
  · exact ⟨0, by simp⟩
  · split
    · obtain ⟨n, hn⟩ := pos (-q)
      exact ⟨-n, by rw [hn]; push_cast; ring⟩
    · exact pos q

theorem roundPos_multiple {q : ℚ} (hq : 0 < q) {n : ℤ} (h : q = n * 2 ^ (-1074 : ℤ)) : roundPos q ≠ 0 := by
  intro h0
  have hn : 1 ≤ n := by
    by_contra hc
    have : (n : ℚ) ≤ 0 := by exact_mod_cast (by omega : n ≤ 0)
    have := mul_nonpos_of_nonpos_of_nonneg this (two_zpow_pos (-1074)).le
    rw [← h] at this; linarith
  have hge : (2 : ℚ) ^ ulpExp q ≤ q := by
    unfold ulpExp
    rcases le_total (log2 q) (-1022) with hl | hl
    · rw [max_eq_right hl, h, show (-1022 : ℤ) - 52 = -1074 from rfl]
      have : (1 : ℚ) ≤ n := by exact_mod_cast hn
      have hp := two_zpow_pos (-1074)
      calc (2 : ℚ) ^ (-1074 : ℤ) = 1 * 2 ^ (-1074 : ℤ) := (one_mul _).symm
        _ ≤ n * 2 ^ (-1074 : ℤ) := mul_le_mul_of_nonneg_right this hp.le
    · rw [max_eq_left hl]
      exact (zpow_le_zpow_right₀ (by norm_num) (by omega)).trans (log2_spec hq).1
  have h1 : 1 ≤ q / 2 ^ ulpExp q := by rw [le_div_iff₀ (two_zpow_pos _)]; linarith
  have h2 := (toInt_near (q / 2 ^ ulpExp q)).2
  unfold roundPos at h0
  rcases mul_eq_zero.1 h0 with h3 | h3
  · rw [h3] at h2; linarith
  · exact (two_zpow_pos _).ne' h3

/-- Gradual underflow: a difference of doubles is not rounded to zero. -/
theorem round_sub {a b : ℚ} (ha : Rep a) (hb : Rep b) (h : round (a - b) = 0) : a = b := by
  obtain ⟨n, hn⟩ := ha.multiple
  obtain ⟨m, hm⟩ := hb.multiple
  by_contra hne
  unfold round at h
  rw [if_neg (sub_ne_zero.2 hne)] at h
  split at h
  · rename_i hl
    refine roundPos_multiple (q := -(a - b)) (by linarith) (n := m - n) ?_ (by linarith)
    rw [hn, hm]; push_cast; ring
  · rename_i hl
    have : 0 < a - b := lt_of_le_of_ne (not_lt.1 hl) (Ne.symm (sub_ne_zero.2 hne))
    refine roundPos_multiple this (n := n - m) ?_ h
    rw [hn, hm]; push_cast; ring

/-! ### the laws -/

theorem neg_fin {q : ℚ} (h : Rep q) (h0 : q ≠ 0) : neg (.fin q h) = .fin (-q) h.neg := by
  change (if q = 0 then B64.negZero else pack (-q)) = _
  rw [if_neg h0, pack_rep]

theorem eq_zero_iff (x : B64) : eq x zero = true ↔ key x = some (0, 0) := by
  unfold eq zero
  cases h : key x with
  | none => simp [key]
  | some u => simp [key]

theorem key_pack_zero {q : ℚ} (h : key (pack q) = some (0, 0)) : round q = 0 := by
  unfold pack at h
  split at h
  · rename_i h1; exact h1.1
  · split at h
    · simp only [key, Option.some.injEq, Prod.mk.injEq, true_and] at h; exact h
    · cases hq : decide (q < 0) <;> rw [hq] at h <;> simp [key] at h

theorem add_zero' (t : B64) : key (add t zero) = key t := by
  unfold zero
  cases t with
  | nan => rfl
  | inf s => rfl
  | negZero => rfl
  | fin q h =>
    change key (pack (q + 0)) = _
    rw [add_zero, pack_rep h]

/-- Double precision satisfies what is asked of the arithmetic, whatever the order of `np.sum`. -/
theorem lawful (sum : List B64 → B64) : (arith sum).Lawful where
  zero_eq := by
    change eq zero zero = true
    decide +kernel
  pos_ne c h := by
    change lt zero c = true at h
    change eq c zero = false
    by_contra hc
    rw [Bool.not_eq_false, eq_zero_iff] at hc
    unfold lt at h
    rw [hc] at h
    simp [zero, key] at h
  add_zero_le c t := by
    change le c (add t zero) = le c t
    unfold le lt eq
    rw [add_zero']
  sub_zero a b h := by
    change eq (sub a b) zero = true at h
    change eq a b = true
    rw [eq_zero_iff] at h
    unfold sub at h
    cases b with
    | nan => cases a <;> simp [neg, add, key] at h
    | inf s => cases a with
      | inf s' => cases s <;> cases s' <;> simp [neg, add, key, eq] at h ⊢
      | _ => cases s <;> simp [neg, add, key] at h
    | negZero => cases a with
      | nan => simp [neg, add, key] at h
      | inf s => cases s <;> simp [neg, add, zero, key] at h
      | negZero => rfl
      | fin q hq =>
        change key (add (.fin q hq) zero) = _ at h
        rw [add_zero'] at h
        unfold eq; rw [h]; rfl
    | fin b hb =>
      by_cases h0 : b = 0
      · subst h0
        have hneg : neg (.fin 0 hb) = .negZero := by
          change (if (0 : ℚ) = 0 then B64.negZero else pack (-0)) = _
          rw [if_pos rfl]
        rw [hneg] at h
        have : key a = some (0, 0) := by
          cases a with
          | inf s => cases s <;> simp [add, key] at h
          | _ => simpa [add, key] using h
        unfold eq; rw [this]; rfl
      · rw [neg_fin hb h0] at h
        cases a with
        | nan => simp [add, key] at h
        | inf s => cases s <;> simp [add, key] at h
        | negZero =>
          simp only [add, key, Option.some.injEq, Prod.mk.injEq, true_and] at h
          exact absurd (neg_eq_zero.1 h) h0
        | fin a ha =>
          have h1 := key_pack_zero (q := a + -b) h
          rw [← sub_eq_add_neg] at h1
          have := round_sub ha hb h1
          subst this
          simp [eq, key]

end B64
end Arctic
