import Verif.Lemmas.Binary64Error

/-!
# Order and grid of the doubles

Rounding is monotone, doubles of one binade are the multiples of one power of two, and the subtraction that
`cy_update_watermark_volumes_for_cloud_below_highest` does cannot round the upper part of a split watermark to nothing.
-/

set_option linter.unusedSectionVars false
set_option linter.unusedVariables false

namespace Arctic.B64

theorem log2_mono {x y : ℚ} (hx : 0 < x) (h : x ≤ y) : log2 x ≤ log2 y := by
  have h1 := (log2_spec hx).1
  have h2 := (log2_spec (hx.trans_le h)).2
  have := (zpow_lt_zpow_iff_right₀ (by norm_num : (1 : ℚ) < 2)).1 ((h1.trans h).trans_lt h2)
  omega

theorem ulpExp_mono {x y : ℚ} (hx : 0 < x) (h : x ≤ y) : ulpExp x ≤ ulpExp y := by
  have := log2_mono hx h
  unfold ulpExp
  omega

theorem round_pos {q : ℚ} (h : 0 < q) : round q = roundPos q := by
  unfold round
  rw [if_neg h.ne', if_neg (by linarith)]

/-- The doubles of one binade are multiples of one unit. -/
theorem Rep.grid {q : ℚ} (h : Rep q) (hq : 0 < q) : ∃ n : ℤ, 0 < n ∧ n < 2 ^ 53 ∧ q = n * 2 ^ ulpExp q := by
  have h1 := h.1
  rw [round_pos hq] at h1
  unfold roundPos at h1
  have hu := two_zpow_pos (ulpExp q)
  have hpos : (0 : ℚ) < toInt (q / 2 ^ ulpExp q) := by
    by_contra hc
    push Not at hc
    have : (toInt (q / 2 ^ ulpExp q) : ℚ) * 2 ^ ulpExp q ≤ 0 := mul_nonpos_of_nonpos_of_nonneg hc hu.le
    linarith
  refine ⟨toInt (q / 2 ^ ulpExp q), by exact_mod_cast hpos, ?_, h1.symm⟩
  have h2 := (log2_spec hq).2
  have h3 : (2 : ℚ) ^ (log2 q + 1) ≤ 2 ^ (53 : ℕ) * 2 ^ ulpExp q := by
    rw [← zpow_natCast, ← zpow_add₀ (by norm_num)]
    refine zpow_le_zpow_right₀ (by norm_num) ?_
    unfold ulpExp
    push_cast
    omega
  have h4 : (toInt (q / 2 ^ ulpExp q) : ℚ) * 2 ^ ulpExp q < 2 ^ (53 : ℕ) * 2 ^ ulpExp q := by
    rw [h1]; exact h2.trans_le h3
  have h5 := lt_of_mul_lt_mul_right h4 hu.le
  exact_mod_cast h5

/-- A multiple of a larger power of two is a multiple of a smaller one. -/
theorem zpow_split {a e : ℤ} (h : a ≤ e) (n : ℤ) : ((n : ℚ) * 2 ^ e) = ((n * 2 ^ (e - a).toNat : ℤ) : ℚ) * 2 ^ a := by
  push_cast
  rw [mul_assoc]
  congr 1
  rw [← zpow_natCast, ← zpow_add₀ (by norm_num)]
  congr 1
  omega

theorem Rep.multipleOf {q : ℚ} {e : ℤ} (h : Rep q) (hq : 0 ≤ q) (he : 0 < q → e ≤ ulpExp q) :
    ∃ m : ℤ, 0 ≤ m ∧ q = m * 2 ^ e := by
  rcases hq.eq_or_lt with rfl | hq
  · exact ⟨0, le_rfl, by simp⟩
  obtain ⟨n, n0, -, hn⟩ := h.grid hq
  refine ⟨n * 2 ^ (ulpExp q - e).toNat, by positivity, ?_⟩
  rw [← zpow_split (he hq), ← hn]

/-- Numbers of 53 bits are not rounded. -/
theorem round_grid {n e : ℤ} (h0 : 0 ≤ n) (h1 : n < 2 ^ 53) (he : -1074 ≤ e) : round (n * 2 ^ e) = n * 2 ^ e := by
  rcases h0.eq_or_lt with rfl | h0
  · simp [round_zero]
  have hp : (0 : ℚ) < n * 2 ^ e := mul_pos (by exact_mod_cast h0) (two_zpow_pos e)
  rw [round_pos hp]
  have hlt : (n : ℚ) * 2 ^ e < 2 ^ (e + 53) := by
    rw [zpow_add₀ (by norm_num), mul_comm ((2 : ℚ) ^ e)]
    refine mul_lt_mul_of_pos_right ?_ (two_zpow_pos e)
    exact_mod_cast h1
  have hl := log2_lt hp hlt
  have hu : ulpExp ((n : ℚ) * 2 ^ e) ≤ e := by
    unfold ulpExp
    omega
  exact roundPos_int _ (zpow_split hu n)

theorem round_mono_rep {x y : ℚ} (hy : Rep y) (h : x ≤ y) : round x ≤ y := by
  have pos : ∀ {x y : ℚ}, Rep y → 0 < x → x ≤ y → roundPos x ≤ y := by
    intro x y hy hx h
    obtain ⟨m, -, hm⟩ := hy.multipleOf (e := ulpExp x) (hx.le.trans h) fun _ => ulpExp_mono hx h
    have hu := two_zpow_pos (ulpExp x)
    have hle : x / 2 ^ ulpExp x ≤ m := by
      rw [div_le_iff₀ hu, ← hm]; exact h
    have : toInt (x / 2 ^ ulpExp x) ≤ m := by
      rcases hle.eq_or_lt with h' | h'
      · rw [h', toInt_int]
      · exact toInt_le h'
    unfold roundPos
    rw [hm]
    exact mul_le_mul_of_nonneg_right (by exact_mod_cast this) hu.le
  have neg' : ∀ {x y : ℚ}, Rep y → 0 < y → y ≤ x → y ≤ roundPos x := by
    intro x y hy hy0 h
    have hx := hy0.trans_le h
    have hu := two_zpow_pos (ulpExp x)
    by_cases hb : y < 2 ^ (ulpExp x + 52)
    · -- the rounded number is in a higher binade
      have hl : ulpExp x ≠ -1074 ∨ ulpExp x = -1074 := by omega
      rcases hl with hl | hl
      · have h2 : (2 : ℚ) ^ (ulpExp x + 52) ≤ x := by
          have : ulpExp x + 52 = log2 x := by unfold ulpExp at hl ⊢; omega
          rw [this]; exact (log2_spec hx).1
        have h3 : ((2 ^ 52 : ℤ) : ℚ) ≤ x / 2 ^ ulpExp x := by
          rw [le_div_iff₀ hu]
          push_cast
          rw [zpow_add₀ (by norm_num), mul_comm] at h2
          exact h2
        have h4 : (2 ^ 52 : ℤ) ≤ toInt (x / 2 ^ ulpExp x) := by
          have := (toInt_near (x / 2 ^ ulpExp x)).2
          by_contra hc
          have hc' : (toInt (x / 2 ^ ulpExp x) : ℚ) ≤ ((2 ^ 52 : ℤ) : ℚ) - 1 := by
            exact_mod_cast (by omega : toInt (x / 2 ^ ulpExp x) ≤ 2 ^ 52 - 1)
          linarith
        unfold roundPos
        refine hb.le.trans ?_
        rw [zpow_add₀ (by norm_num), mul_comm]
        refine mul_le_mul_of_nonneg_right ?_ hu.le
        have : ((2 ^ 52 : ℤ) : ℚ) ≤ toInt (x / 2 ^ ulpExp x) := by exact_mod_cast h4
        refine le_trans (le_of_eq ?_) this
        norm_num
      · obtain ⟨m, -, hm⟩ := hy.multipleOf (e := ulpExp x) hy0.le fun _ => by rw [hl]; exact ulpExp_ge y
        have hle : (m : ℚ) ≤ x / 2 ^ ulpExp x := by
          rw [le_div_iff₀ hu, ← hm]; exact h
        have : m ≤ toInt (x / 2 ^ ulpExp x) := by
          have h5 := (toInt_near (x / 2 ^ ulpExp x)).2
          by_contra hc
          have hc' : (toInt (x / 2 ^ ulpExp x) : ℚ) ≤ (m : ℚ) - 1 := by
            exact_mod_cast (by omega : toInt (x / 2 ^ ulpExp x) ≤ m - 1)
          linarith
        unfold roundPos
        rw [hm]
        exact mul_le_mul_of_nonneg_right (by exact_mod_cast this) hu.le
    · push Not at hb
      have hul : ulpExp x ≤ ulpExp y := by
        have := (zpow_lt_zpow_iff_right₀ (by norm_num : (1 : ℚ) < 2)).1 (hb.trans_lt (log2_spec hy0).2)
        unfold ulpExp at this ⊢
        omega
      obtain ⟨m, -, hm⟩ := hy.multipleOf (e := ulpExp x) hy0.le fun _ => hul
      have hle : (m : ℚ) ≤ x / 2 ^ ulpExp x := by
        rw [le_div_iff₀ hu, ← hm]; exact h
      have : m ≤ toInt (x / 2 ^ ulpExp x) := by
        have h5 := (toInt_near (x / 2 ^ ulpExp x)).2
        by_contra hc
        have hc' : (toInt (x / 2 ^ ulpExp x) : ℚ) ≤ (m : ℚ) - 1 := by
          exact_mod_cast (by omega : toInt (x / 2 ^ ulpExp x) ≤ m - 1)
        linarith
      unfold roundPos
      rw [hm]
      exact mul_le_mul_of_nonneg_right (by exact_mod_cast this) hu.le
  rcases lt_trichotomy x 0 with hx | hx | hx
  · have hr : round x = -roundPos (-x) := by
      unfold round
      rw [if_neg hx.ne, if_pos hx]
    rw [hr]
    rcases le_or_gt 0 y with hy0 | hy0
    · have := roundPos_nonneg (q := -x) (by linarith)
      linarith
    · have := neg' hy.neg (by linarith) (by linarith : -y ≤ -x)
      linarith
  · subst hx
    rw [round_zero]; exact h
  · rw [round_pos hx]
    exact pos hy hx h

theorem round_mono_rep' {x y : ℚ} (hy : Rep y) (h : y ≤ x) : y ≤ round x := by
  have := round_mono_rep hy.neg (by linarith : -x ≤ -y)
  rw [round_neg] at this
  linarith

/-- The error is at most half a unit. -/
theorem roundPos_half (q : ℚ) : |roundPos q - q| ≤ 2 ^ ulpExp q / 2 := by
  have hu := two_zpow_pos (ulpExp q)
  obtain ⟨n1, n2⟩ := toInt_near (q / 2 ^ ulpExp q)
  have e : q / 2 ^ ulpExp q * 2 ^ ulpExp q = q := div_mul_cancel₀ _ hu.ne'
  have m1 := mul_le_mul_of_nonneg_right n1 hu.le
  have m2 := mul_le_mul_of_nonneg_right n2 hu.le
  rw [e] at m1 m2
  unfold roundPos
  rw [abs_le]
  constructor <;> linarith

/-- The distance of a double from a smaller one. -/
theorem Rep.gap {x c : ℚ} (hx : Rep x) (hc : Rep c) (h0 : 0 ≤ x) (h : x < c) :
    x ≤ c - 2 ^ ulpExp c ∨ (-1022 < log2 c ∧ c = 2 ^ log2 c ∧ x ≤ c - 2 ^ (ulpExp c - 1)) := by
  have hc0 : 0 < c := h0.trans_lt h
  have hu := two_zpow_pos (ulpExp c)
  -- numbers on the same grid
  have same : ∀ y, 0 ≤ y → y < c → (∃ m : ℤ, y = m * 2 ^ ulpExp c) → y ≤ c - 2 ^ ulpExp c := by
    rintro y hy hyc ⟨m, hm⟩
    obtain ⟨n, -, -, hn⟩ := hc.grid hc0
    have : (m : ℚ) * 2 ^ ulpExp c < n * 2 ^ ulpExp c := by rw [← hm, ← hn]; exact hyc
    have h2 : m < n := by exact_mod_cast lt_of_mul_lt_mul_right this hu.le
    have h3 : (m : ℚ) + 1 ≤ n := by exact_mod_cast h2
    have h4 := mul_le_mul_of_nonneg_right h3 hu.le
    rw [← hn, add_mul, ← hm] at h4
    linarith
  rcases h0.eq_or_lt with rfl | hx0
  · exact Or.inl (same 0 le_rfl h ⟨0, by simp⟩)
  by_cases hl : ulpExp c ≤ ulpExp x
  · obtain ⟨m, -, hm⟩ := hx.multipleOf (e := ulpExp c) hx0.le fun _ => hl
    exact Or.inl (same x hx0.le h ⟨m, hm⟩)
  push Not at hl
  have hlc : -1022 < log2 c ∧ log2 x < log2 c := by
    unfold ulpExp at hl; omega
  have hpow : ulpExp c = log2 c - 52 := by unfold ulpExp; omega
  have hxlt : x < 2 ^ log2 c := (log2_spec hx0).2.trans_le (zpow_le_zpow_right₀ (by norm_num) (by omega))
  by_cases hB : c = 2 ^ log2 c
  · refine Or.inr ⟨hlc.1, hB, ?_⟩
    obtain ⟨n, n0, n1, hn⟩ := hx.grid hx0
    have hue : ulpExp x ≤ log2 c - 53 := by unfold ulpExp; omega
    have h1 : (n : ℚ) ≤ 2 ^ 53 - 1 := by exact_mod_cast (by omega : n ≤ 2 ^ 53 - 1)
    have h2 : x ≤ (2 ^ 53 - 1) * 2 ^ ulpExp x :=
      hn.le.trans (mul_le_mul_of_nonneg_right h1 (two_zpow_pos _).le)
    have h3 : ((2 : ℚ) ^ 53 - 1) * 2 ^ ulpExp x ≤ (2 ^ 53 - 1) * 2 ^ (log2 c - 53) :=
      mul_le_mul_of_nonneg_left (zpow_le_zpow_right₀ (by norm_num) hue) (by norm_num)
    have h4 : ((2 : ℚ) ^ 53 - 1) * 2 ^ (log2 c - 53) = 2 ^ log2 c - 2 ^ (ulpExp c - 1) := by
      have e1 : ulpExp c - 1 = log2 c - 53 := by omega
      have e2 : (2 : ℚ) ^ log2 c = 2 ^ 53 * 2 ^ (log2 c - 53) := by
        rw [← zpow_natCast, ← zpow_add₀ (by norm_num)]
        congr 1
        push_cast
        omega
      rw [e1, e2]
      ring
    rw [h4, ← hB] at h3
    exact h2.trans h3
  · left
    have hBlt : (2 : ℚ) ^ log2 c < c := lt_of_le_of_ne (log2_spec hc0).1 (Ne.symm hB)
    have := same (2 ^ log2 c) (two_zpow_pos _).le hBlt ⟨2 ^ 52, by
      have e : (((2 ^ 52 : ℤ)) : ℚ) = 2 ^ (52 : ℤ) := by norm_num
      rw [hpow, e, ← zpow_add₀ (by norm_num)]
      congr 1
      omega⟩
    linarith

/-- The next grid point below a double is a double. -/
theorem Rep.below {v : ℚ} (hv : Rep v) (v0 : 0 < v) : Rep (v - 2 ^ ulpExp v) := by
  obtain ⟨n, n0, n1, hn⟩ := hv.grid v0
  have hu := two_zpow_pos (ulpExp v)
  have e : v - 2 ^ ulpExp v = ((n - 1 : ℤ) : ℚ) * 2 ^ ulpExp v := by
    push_cast
    rw [sub_mul, ← hn, one_mul]
  have h0 : 0 ≤ v - 2 ^ ulpExp v := by
    rw [e]
    have : (0 : ℚ) ≤ ((n - 1 : ℤ) : ℚ) := by exact_mod_cast (by omega : 0 ≤ n - 1)
    exact mul_nonneg this hu.le
  refine ⟨?_, ?_⟩
  · rw [e]
    exact round_grid (by omega) (by omega) (ulpExp_ge v)
  · have := hv.2
    rw [abs_of_pos v0] at this
    rw [abs_of_nonneg h0]
    linarith

/-- In the code's way to compute the volume of the part of a watermark below the cloud, the result is smaller than the
whole volume, whatever is rounded. -/
theorem split_below_lt {v c x : ℚ} (hv : Rep v) (hc : Rep c) (hx : Rep x) (v0 : 0 < v) (hvc : v ≤ c) (x0 : 0 ≤ x)
    (hxc : x < c) : round (x - round (c - v)) < v := by
  rcases hvc.eq_or_lt with rfl | hvc
  · rw [sub_self, round_zero, sub_zero, hx.1]; exact hxc
  have hc0 : 0 < c := v0.trans hvc
  have hd : 0 < c - v := by linarith
  have huv := two_zpow_pos (ulpExp v)
  suffices h : x - round (c - v) ≤ v - 2 ^ ulpExp v by
    have := round_mono_rep (hv.below v0) h
    linarith
  have hgap := hx.gap hc x0 hxc
  have hlv := log2_mono v0 hvc.le
  have small : ∀ {a b : ℤ}, a ≤ b → (2 : ℚ) ^ a ≤ 2 ^ b := fun h => zpow_le_zpow_right₀ (by norm_num) h
  have hg : (2 : ℚ) ^ ulpExp v ≤ c - x := by
    rcases hgap with h | ⟨h1, h2, h3⟩
    · have := small (ulpExp_mono v0 hvc.le)
      linarith
    · have hl : log2 v < log2 c := log2_lt v0 (h2 ▸ hvc)
      have : ulpExp v ≤ ulpExp c - 1 := by unfold ulpExp; omega
      have := small this
      linarith
  have exact : round (c - v) = c - v → x - round (c - v) ≤ v - 2 ^ ulpExp v := by
    intro h
    rw [h]
    linarith
  have half : ∀ e : ℤ, (2 : ℚ) ^ e / 2 = 2 ^ (e - 1) := by
    intro e
    rw [zpow_sub_one₀ (by norm_num)]
    ring
  obtain ⟨n, n0, n1, hn⟩ := hv.grid v0
  by_cases hS : c ≤ 2 * v
  · refine exact ?_
    obtain ⟨m, m0, hm⟩ := hc.multipleOf (e := ulpExp v) hc0.le fun _ => ulpExp_mono v0 hvc.le
    have e : c - v = ((m - n : ℤ) : ℚ) * 2 ^ ulpExp v := by
      push_cast
      rw [sub_mul, ← hm, ← hn]
    have h1 : (n : ℚ) * 2 ^ ulpExp v < m * 2 ^ ulpExp v := by rw [← hm, ← hn]; exact hvc
    have h2 : (m : ℚ) * 2 ^ ulpExp v ≤ (2 * n) * 2 ^ ulpExp v := by rw [← hm, mul_assoc, ← hn]; exact hS
    have h1' : n < m := by exact_mod_cast lt_of_mul_lt_mul_right h1 huv.le
    have h2' : (m : ℚ) ≤ 2 * n := le_of_mul_le_mul_right h2 huv
    have h2'' : m ≤ 2 * n := by exact_mod_cast h2'
    rw [e]
    exact round_grid (by omega) (by omega) (ulpExp_ge v)
  push Not at hS
  by_cases hsub : c - v < 2 ^ (-1021 : ℤ)
  · refine exact ?_
    obtain ⟨m, m0, hm⟩ := hc.multipleOf (e := -1074) hc0.le fun _ => ulpExp_ge c
    obtain ⟨k, k0, hk⟩ := hv.multipleOf (e := -1074) v0.le fun _ => ulpExp_ge v
    have hu := two_zpow_pos (-1074)
    have e : c - v = ((m - k : ℤ) : ℚ) * 2 ^ (-1074 : ℤ) := by
      push_cast
      rw [sub_mul, ← hm, ← hk]
    have h1 : (k : ℚ) * 2 ^ (-1074 : ℤ) < m * 2 ^ (-1074 : ℤ) := by rw [← hm, ← hk]; exact hvc
    have h1' : k < m := by exact_mod_cast lt_of_mul_lt_mul_right h1 hu.le
    have h2 : ((m - k : ℤ) : ℚ) * 2 ^ (-1074 : ℤ) < ((2 ^ 53 : ℤ) : ℚ) * 2 ^ (-1074 : ℤ) := by
      rw [← e]
      refine hsub.trans_le (le_of_eq ?_)
      have e : (((2 ^ 53 : ℤ)) : ℚ) = 2 ^ (53 : ℤ) := by norm_num
      rw [e, ← zpow_add₀ (by norm_num)]
      congr 1
    have h2' : m - k < 2 ^ 53 := by exact_mod_cast lt_of_mul_lt_mul_right h2 hu.le
    rw [e]
    exact round_grid (by omega) h2' le_rfl
  push Not at hsub
  have hlc : -1022 < log2 c := by
    have := (zpow_lt_zpow_iff_right₀ (by norm_num : (1 : ℚ) < 2)).1
      ((hsub.trans (by linarith : c - v ≤ c)).trans_lt (log2_spec hc0).2)
    omega
  have hlv2 : log2 v < log2 c := by
    by_contra hcon
    have h1 := (log2_spec v0).1
    have h2 := (log2_spec hc0).2
    have h3 : (2 : ℚ) ^ (log2 c + 1) ≤ 2 * 2 ^ log2 v := by
      rw [zpow_add_one₀ (by norm_num), mul_comm]
      have := small (by omega : log2 c ≤ log2 v)
      linarith
    linarith
  have herr := abs_le.1 (roundPos_half (c - v))
  rw [round_pos hd]
  rcases hgap with h | ⟨h1, h2, h3⟩
  · have e1 := small (ulpExp_mono hd (by linarith : c - v ≤ c))
    have e2 : (2 : ℚ) ^ ulpExp v ≤ 2 ^ (ulpExp c - 1) := small (by unfold ulpExp; omega)
    have e3 := half (ulpExp c)
    linarith [herr.1]
  · have l1 : log2 (c - v) < log2 c := log2_lt hd (by rw [← h2]; linarith)
    have e1 : (2 : ℚ) ^ ulpExp (c - v) ≤ 2 ^ (ulpExp c - 1) := small (by unfold ulpExp; omega)
    have hlc2 : -1021 < log2 c := by
      by_contra hcon
      have : (2 : ℚ) ^ log2 c ≤ 2 ^ (-1021 : ℤ) := small (by omega)
      linarith
    have l2 : log2 v < log2 c - 1 := by
      refine log2_lt v0 ?_
      have : (2 : ℚ) ^ log2 c / 2 = 2 ^ (log2 c - 1) := half _
      linarith
    have e2 : (2 : ℚ) ^ ulpExp v ≤ 2 ^ (ulpExp c - 1 - 1) := small (by unfold ulpExp; omega)
    have e3 := half (ulpExp c - 1)
    linarith [herr.1]

end Arctic.B64
