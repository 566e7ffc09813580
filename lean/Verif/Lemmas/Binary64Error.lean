import Verif.Lemmas.Binary64

/-!
# Double precision: values and rounding errors
-/

set_option linter.unusedVariables false

namespace Arctic.B64

theorem roundPos_error {q : ℚ} (hq : 0 < q) : |roundPos q - q| ≤ q * 2 ^ (-53 : ℤ) + 2 ^ (-1075 : ℤ) := by
  obtain ⟨h1, -⟩ := log2_spec hq
  have hu : (0 : ℚ) < 2 ^ ulpExp q := two_zpow_pos _
  obtain ⟨n1, n2⟩ := toInt_near (q / 2 ^ ulpExp q)
  have e : q / 2 ^ ulpExp q * 2 ^ ulpExp q = q := div_mul_cancel₀ _ hu.ne'
  have k1 := mul_le_mul_of_nonneg_right n1 hu.le
  have k2 := mul_le_mul_of_nonneg_right n2 hu.le
  rw [e] at k1 k2
  have hb : |roundPos q - q| ≤ 1 / 2 * 2 ^ ulpExp q := by
    unfold roundPos
    rw [abs_le]
    constructor <;> linarith
  refine hb.trans ?_
  have hz : (0 : ℚ) < 2 ^ (-1075 : ℤ) := two_zpow_pos _
  have hp : 0 < q * 2 ^ (-53 : ℤ) := mul_pos hq (two_zpow_pos _)
  unfold ulpExp
  rcases le_total (log2 q) (-1022) with h | h
  · rw [max_eq_right h]
    have : (1 / 2 : ℚ) * 2 ^ (-1022 - 52 : ℤ) = 2 ^ (-1075 : ℤ) := by
      rw [show (-1022 - 52 : ℤ) = -1075 + 1 by norm_num, zpow_add_one₀ (by norm_num)]
      ring
    rw [this]
    linarith
  · rw [max_eq_left h]
    have : (1 / 2 : ℚ) * 2 ^ (log2 q - 52 : ℤ) = 2 ^ log2 q * 2 ^ (-53 : ℤ) := by
      rw [show (log2 q - 52 : ℤ) = log2 q + -53 + 1 by ring, zpow_add_one₀ (by norm_num),
        zpow_add₀ (by norm_num)]
      ring
    rw [this]
    have := mul_le_mul_of_nonneg_right h1 (two_zpow_pos (-53)).le
    linarith

/-- The rounding error: half a unit in the last place. -/
theorem round_error (q : ℚ) : |round q - q| ≤ |q| * 2 ^ (-53 : ℤ) + 2 ^ (-1075 : ℤ) := by
  rcases lt_trichotomy q 0 with h | h | h
  · have := roundPos_error (q := -q) (by linarith)
    unfold round
    rw [if_neg h.ne, if_pos h, abs_of_neg h]
    rw [show -roundPos (-q) - q = -(roundPos (-q) - -q) by ring, abs_neg]
    exact this
  · subst h
    have : round 0 = 0 := by unfold round; simp
    rw [this]
    have : (0 : ℚ) < 2 ^ (-1075 : ℤ) := two_zpow_pos _
    simp only [sub_self, abs_zero, zero_mul, zero_add]
    exact this.le
  · unfold round
    rw [if_neg h.ne', if_neg h.not_gt, abs_of_pos h]
    exact roundPos_error h

theorem round_zero : round 0 = 0 := by unfold round; simp

theorem roundPos_nat {n : ℕ} (h0 : 0 < n) (h : n ≤ 2 ^ 53) : roundPos (n : ℚ) = n := by
  have hq : (0 : ℚ) < n := by exact_mod_cast h0
  obtain ⟨g1, g2⟩ := log2_spec hq
  have hl : 0 ≤ log2 (n : ℚ) := by
    by_contra hc
    have : (2 : ℚ) ^ (log2 (n : ℚ) + 1) ≤ 2 ^ (0 : ℤ) := zpow_le_zpow_right₀ (by norm_num) (by omega)
    have h1 : (1 : ℚ) ≤ n := by exact_mod_cast h0
    rw [zpow_zero] at this
    linarith
  have hexp : ulpExp (n : ℚ) = log2 (n : ℚ) - 52 := by
    unfold ulpExp
    rw [max_eq_left (by omega)]
  rcases h.lt_or_eq with h | h
  · have : log2 (n : ℚ) < 53 := log2_lt hq (by exact_mod_cast h)
    refine roundPos_int ((n : ℤ) * 2 ^ (52 - log2 (n : ℚ)).toNat) ?_
    rw [hexp]
    have e : (((n : ℤ) * 2 ^ (52 - log2 (n : ℚ)).toNat : ℤ) : ℚ) = n * 2 ^ (52 - log2 (n : ℚ)) := by
      push_cast
      rw [← zpow_natCast, Int.toNat_of_nonneg (by omega)]
    rw [e, mul_assoc, ← zpow_add₀ (by norm_num)]
    simp
  · subst h
    have : log2 ((2 ^ 53 : ℕ) : ℚ) = 53 := by
      refine log2_unique ?_ ?_
      · norm_num
      · norm_num
    refine roundPos_int (2 ^ 52) ?_
    rw [hexp, this]
    norm_num

/-- Integers up to `2 ^ 53` are doubles. -/
theorem round_int {z : ℤ} (h : |z| ≤ 2 ^ 53) : round (z : ℚ) = z := by
  have hn : z.natAbs ≤ 2 ^ 53 := by
    zify
    exact h
  rcases lt_trichotomy z 0 with h0 | h0 | h0
  · unfold round
    have : (z : ℚ) < 0 := by exact_mod_cast h0
    rw [if_neg this.ne, if_pos this]
    have e : (-(z : ℚ)) = (z.natAbs : ℕ) := by
      have : ((z.natAbs : ℕ) : ℤ) = -z := by omega
      have h2 := congrArg (Int.cast : ℤ → ℚ) this
      rw [Int.cast_natCast, Int.cast_neg] at h2
      exact h2.symm
    rw [e, roundPos_nat (by omega) hn, ← e]
    ring
  · subst h0
    exact_mod_cast round_zero
  · unfold round
    have : (0 : ℚ) < z := by exact_mod_cast h0
    rw [if_neg this.ne', if_neg this.not_gt]
    have e : (z : ℚ) = (z.natAbs : ℕ) := by
      have : ((z.natAbs : ℕ) : ℤ) = z := by omega
      have h2 := congrArg (Int.cast : ℤ → ℚ) this
      rw [Int.cast_natCast] at h2
      exact h2.symm
    rw [e, roundPos_nat (by omega) hn]

theorem round_bound {q : ℚ} (h : |q| ≤ 2 ^ 1000) : |round q| < limit := by
  have := round_error q
  have h1 : (2 : ℚ) ^ (-53 : ℤ) ≤ 1 := zpow_le_one_of_nonpos₀ (by norm_num) (by norm_num)
  have h2 : (2 : ℚ) ^ (-1075 : ℤ) ≤ 1 := zpow_le_one_of_nonpos₀ (by norm_num) (by norm_num)
  have h3 : |round q| ≤ |q| + |round q - q| := by
    have := abs_add_le q (round q - q)
    rwa [add_sub_cancel] at this
  have h4 : |q| * 2 ^ (-53 : ℤ) ≤ |q| := mul_le_of_le_one_right (abs_nonneg _) h1
  have h5 : (2 : ℚ) ^ 1000 + 2 ^ 1000 + 1 < limit := by
    unfold limit
    have e : (2 : ℚ) ^ 1024 = 2 ^ 1000 * 2 ^ 24 := by rw [← pow_add]
    have : (1 : ℚ) ≤ 2 ^ 1000 := one_le_pow₀ (by norm_num)
    rw [e]
    generalize (2 : ℚ) ^ 1000 = y at this
    norm_num
    linarith
  generalize (2 : ℚ) ^ 1000 = y at *
  linarith

/-- The double is finite and its value is `q`. -/
def Val (x : B64) (q : ℚ) : Prop := key x = some (0, q)

theorem Val.unique {x : B64} {a b : ℚ} (h : Val x a) (h' : Val x b) : a = b := by
  unfold Val at h h'
  rw [h] at h'
  simpa using h'

theorem Val.cases {x : B64} {a : ℚ} (h : Val x a) : (x = .negZero ∧ a = 0) ∨ ∃ h, x = .fin a h := by
  cases x with
  | nan => cases h
  | inf s => cases s <;> simp [Val, key] at h
  | negZero => left; exact ⟨rfl, by simpa [Val, key, eq_comm] using h⟩
  | fin q hq =>
    right
    have : q = a := by simpa [Val, key] using h
    subst this
    exact ⟨hq, rfl⟩

theorem Val.val {x : B64} {a : ℚ} (h : Val x a) : x.val = a := by
  rcases h.cases with ⟨rfl, rfl⟩ | ⟨_, rfl⟩ <;> rfl

theorem rep_zero : Rep 0 := ⟨round_zero, by unfold limit; simp⟩

theorem Val.rep {x : B64} {a : ℚ} (h : Val x a) : Rep a := by
  rcases h.cases with ⟨rfl, rfl⟩ | ⟨h', rfl⟩
  · exact rep_zero
  · exact h'

theorem val_zero : Val zero 0 := rfl
theorem val_one : Val one 1 := rfl

theorem val_pack {q : ℚ} (h : |round q| < limit) : Val (pack q) (round q) := by
  unfold pack
  split
  · rename_i h'
    rw [h'.1]
    rfl
  · rw [dif_pos ((rep_round q).2 h)]
    rfl

theorem val_int {z : ℤ} (h : |z| ≤ 2 ^ 53) : Val (pack z) z := by
  have := val_pack (q := (z : ℚ)) ?_
  · rwa [round_int h] at this
  · apply round_bound
    have h1 : |(z : ℚ)| ≤ 2 ^ 53 := by exact_mod_cast h
    exact h1.trans (pow_le_pow_right₀ (by norm_num) (by norm_num))

theorem val_add {x y : B64} {a b : ℚ} (hx : Val x a) (hy : Val y b) (h : |round (a + b)| < limit) :
    Val (add x y) (round (a + b)) := by
  rcases hx.cases with ⟨rfl, rfl⟩ | ⟨ha, rfl⟩
  · rw [zero_add, hy.rep.1]
    rcases hy.cases with ⟨rfl, rfl⟩ | ⟨hb, rfl⟩ <;> exact hy
  · rcases hy.cases with ⟨rfl, rfl⟩ | ⟨hb, rfl⟩
    · rw [add_zero, ha.1]
      exact hx
    · exact val_pack h

theorem val_neg {x : B64} {a : ℚ} (hx : Val x a) : Val (neg x) (-a) := by
  rcases hx.cases with ⟨rfl, rfl⟩ | ⟨ha, rfl⟩
  · rw [neg_zero]; rfl
  · by_cases h0 : a = 0
    · subst h0
      rw [neg_zero]
      change Val (if (0 : ℚ) = 0 then .negZero else pack (-0)) 0
      rw [if_pos rfl]
      rfl
    · rw [neg_fin ha h0]
      rfl

theorem val_sub {x y : B64} {a b : ℚ} (hx : Val x a) (hy : Val y b) (h : |round (a - b)| < limit) :
    Val (sub x y) (round (a - b)) := by
  rw [sub_eq_add_neg] at h ⊢
  exact val_add hx (val_neg hy) h

theorem val_mul {x y : B64} {a b : ℚ} (hx : Val x a) (hy : Val y b) (h : |round (a * b)| < limit) :
    Val (mul x y) (round (a * b)) := by
  have key : ∀ s, Val (if a * b = 0 then signedZero s else pack (a * b)) (round (a * b)) := by
    intro s
    split
    · rename_i h0
      rw [h0, round_zero]
      cases s <;> rfl
    · exact val_pack h
  rcases hx.cases with ⟨rfl, rfl⟩ | ⟨ha, rfl⟩ <;> rcases hy.cases with ⟨rfl, rfl⟩ | ⟨hb, rfl⟩ <;> exact key _

theorem val_div {x y : B64} {a b : ℚ} (hx : Val x a) (hy : Val y b) (hb0 : b ≠ 0) (h : |round (a / b)| < limit) :
    Val (div x y) (round (a / b)) := by
  have key : ∀ s u, Val (if b = 0 then u else if a = 0 then signedZero s else pack (a / b)) (round (a / b)) := by
    intro s u
    rw [if_neg hb0]
    split
    · rename_i h0
      rw [h0, zero_div, round_zero]
      cases s <;> rfl
    · exact val_pack h
  rcases hx.cases with ⟨rfl, rfl⟩ | ⟨ha, rfl⟩ <;> rcases hy.cases with ⟨rfl, rfl⟩ | ⟨hb, rfl⟩ <;>
    first | exact absurd rfl hb0 | exact key _ _

theorem val_lt {x y : B64} {a b : ℚ} (hx : Val x a) (hy : Val y b) : lt x y = decide (a < b) := by
  unfold lt
  rw [hx, hy]
  simp

/-- The sign of a difference of doubles is exact. -/
theorem round_sub_pos {a b : ℚ} (ha : Rep a) (hb : Rep b) : 0 < round (a - b) ↔ b < a := by
  have hnn : ∀ q : ℚ, 0 ≤ q → 0 ≤ round q := by
    intro q hq
    unfold round
    split
    · exact le_rfl
    · rw [if_neg (not_lt.2 hq)]
      exact roundPos_nonneg hq
  constructor
  · intro h
    by_contra hc
    have := hnn (b - a) (by linarith)
    rw [show b - a = -(a - b) by ring, round_neg] at this
    linarith
  · intro h
    refine lt_of_le_of_ne (hnn _ (by linarith)) fun h0 => ?_
    have := round_sub ha hb h0.symm
    linarith

end Arctic.B64
