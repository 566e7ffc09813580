import Verif.Spec.Ieee
import Verif.Lemmas.Binary64Error
set_option linter.unusedSectionVars false
set_option linter.unusedVariables false

/-!
# C97 — Double precision: every operation is correctly rounded
-/

namespace Arctic

open B64

namespace Ieee

theorem Finite.neg {q : ℚ} (h : Finite q) : Finite (-q) := by
  obtain ⟨m, e, h1, h2, h3, rfl⟩ := h
  exact ⟨-m, e, by rwa [abs_neg], h2, h3, by push_cast; ring⟩

theorem Nearest.neg {q v : ℚ} (h : Nearest q v) : Nearest (-q) (-v) := by
  have e : ∀ w, |-q - w| = |q - -w| := fun w => by rw [← abs_neg]; congr 1; ring
  refine ⟨h.finite.neg, fun w hw => ?_, fun w hw hne hd => ?_⟩
  · rw [e, e, neg_neg]; exact h.nearest _ hw.neg
  · rw [e, e, neg_neg] at hd
    obtain ⟨m, k, h1, h2⟩ := h.even (-w) hw.neg (fun h => hne (by rw [← h, neg_neg])) hd
    refine ⟨-m, k, by rw [h1]; push_cast; ring, ?_⟩
    rcases h2 with h2 | h2
    · right; rw [← neg_neg w, h2]; push_cast; ring
    · left; rw [← neg_neg w, h2]; push_cast; ring

/-- There is only one such number. -/
theorem Nearest.unique {q v w : ℚ} (h : Nearest q v) (h' : Nearest q w) : v = w := by
  by_contra hne
  have hd : |q - w| = |q - v| := le_antisymm (h'.nearest _ h.finite) (h.nearest _ h'.finite)
  obtain ⟨m, e, h1, h2⟩ := h.even w h'.finite (Ne.symm hne) hd
  obtain ⟨n, k, h3, h4⟩ := h'.even v h.finite hne hd.symm
  have p : (0 : ℚ) < 2 ^ e := by positivity
  have r : (0 : ℚ) < 2 ^ k := by positivity
  have a : |v - w| = 2 ^ e := by
    rcases h2 with h2 | h2 <;> rw [h1, h2] <;> ring_nf <;> simp [abs_of_pos p]
  have b : |v - w| = 2 ^ k := by
    rcases h4 with h4 | h4 <;> rw [h3, h4] <;> ring_nf <;> simp [abs_of_pos r]
  have ek : (2 : ℚ) ^ e = 2 ^ k := a.symm.trans b
  rw [← ek] at h3 h4
  have : ∃ z : ℤ, (2 * m : ℚ) = 2 * z + 1 := by
    rcases h4 with h4 | h4
    · exact ⟨n, mul_right_cancel₀ p.ne' (h1.symm.trans h4)⟩
    · exact ⟨n - 1, by push_cast; linarith [mul_right_cancel₀ p.ne' (h1.symm.trans h4)]⟩
  obtain ⟨z, hz⟩ := this
  have : 2 * m = 2 * z + 1 := by exact_mod_cast hz
  omega

end Ieee

open Ieee

theorem finite_of_rep {q : ℚ} (h : Rep q) : Finite q := by
  have pos : ∀ q : ℚ, 0 < q → roundPos q = q → q < limit → Finite q := by
    intro q hq hr hl
    obtain ⟨g1, g2⟩ := log2_spec hq
    have hu := two_zpow_pos (ulpExp q)
    have hge := ulpExp_ge q
    have hn : 0 ≤ toInt (q / 2 ^ ulpExp q) := toInt_nonneg (by positivity)
    have hlog : log2 q < 1024 := log2_lt hq (by unfold limit at hl; exact_mod_cast hl)
    refine ⟨toInt (q / 2 ^ ulpExp q), ulpExp q, ?_, hge, ?_, ?_⟩
    · rw [abs_of_nonneg hn]
      by_contra hc
      push Not at hc
      have h1 : ((2 : ℚ) ^ (53 : ℤ)) ≤ toInt (q / 2 ^ ulpExp q) := by exact_mod_cast hc
      have h2 : (2 : ℚ) ^ (53 : ℤ) * 2 ^ ulpExp q ≤ q := by
        conv_rhs => rw [← hr]
        unfold roundPos
        exact mul_le_mul_of_nonneg_right h1 hu.le
      rw [← zpow_add₀ (by norm_num)] at h2
      have h3 := (zpow_lt_zpow_iff_right₀ (by norm_num : (1 : ℚ) < 2)).1 (h2.trans_lt g2)
      unfold ulpExp at h3
      have := le_max_left (log2 q) (-1022)
      omega
    · unfold ulpExp
      have : max (log2 q) (-1022) ≤ 1023 := max_le (by omega) (by norm_num)
      omega
    · conv_lhs => rw [← hr]
      rfl
  obtain ⟨h1, h2⟩ := h
  rcases lt_trichotomy q 0 with hq | hq | hq
  · have e : B64.round q = -roundPos (-q) := by unfold B64.round; rw [if_neg hq.ne, if_pos hq]
    have := pos (-q) (by linarith) (by rw [e] at h1; linarith) (by rw [abs_of_neg hq] at h2; exact h2)
    simpa using this.neg
  · subst hq
    exact ⟨0, 0, by norm_num, by norm_num, by norm_num, by simp⟩
  · have e : B64.round q = roundPos q := by unfold B64.round; rw [if_neg hq.ne', if_neg (by linarith)]
    exact pos q hq (by rw [← e]; exact h1) (by rw [abs_of_pos hq] at h2; exact h2)

theorem rep_of_finite {q : ℚ} (h : Finite q) : Rep q := by
  have pos : ∀ q : ℚ, 0 < q → Finite q → Rep q := by
    rintro q hq ⟨m, e, h1, h2, h3, rfl⟩
    have hp := two_zpow_pos e
    have hm : (0 : ℚ) < m := by
      by_contra hc
      push Not at hc
      linarith [mul_nonpos_of_nonpos_of_nonneg hc hp.le]
    have hm' : 0 < m := by exact_mod_cast hm
    rw [abs_of_pos hm'] at h1
    have hm2 : (m : ℚ) < 2 ^ (53 : ℤ) := by exact_mod_cast h1
    have hlt : (m : ℚ) * 2 ^ e < 2 ^ (53 + e) := by
      rw [zpow_add₀ (by norm_num)]
      exact mul_lt_mul_of_pos_right hm2 hp
    have hlog := log2_lt hq hlt
    have hu : ulpExp ((m : ℚ) * 2 ^ e) ≤ e := by
      unfold ulpExp
      have : max (log2 ((m : ℚ) * 2 ^ e)) (-1022) ≤ e + 52 := max_le (by omega) (by omega)
      omega
    refine ⟨?_, ?_⟩
    · unfold B64.round
      rw [if_neg hq.ne', if_neg (by linarith)]
      obtain ⟨k, hk⟩ := Int.le.dest hu
      refine roundPos_int (m * 2 ^ k) ?_
      have e1 : (2 : ℚ) ^ e = 2 ^ k * 2 ^ ulpExp ((m : ℚ) * 2 ^ e) := by
        conv_lhs => rw [← hk]
        rw [zpow_add₀ (by norm_num), mul_comm, zpow_natCast]
      conv_lhs => rw [e1]
      push_cast
      ring
    · rw [abs_of_pos hq]
      unfold limit
      refine hlt.trans_le ?_
      rw [← zpow_natCast]
      exact zpow_le_zpow_right₀ (by norm_num) (by push_cast; omega)
  rcases lt_trichotomy q 0 with hq | hq | hq
  · simpa using (pos (-q) (by linarith) h.neg).neg
  · rw [hq]; exact rep_zero
  · exact pos q hq h

/-- **C97**: the doubles of the model are the numbers with 53 bits. -/
theorem C97_doubles (q : ℚ) : Rep q ↔ Finite q := ⟨finite_of_rep, rep_of_finite⟩

theorem toInt_best (x : ℚ) (k : ℤ) : |x - toInt x| ≤ |x - k| ∧
    (k ≠ toInt x → |x - k| = |x - toInt x| → 2 ∣ toInt x ∧ (k = toInt x + 1 ∨ k = toInt x - 1)) := by
  obtain ⟨h1, h2⟩ := toInt_near x
  have ha : |x - toInt x| ≤ 1 / 2 := abs_le.2 ⟨by linarith, by linarith⟩
  by_cases hk : k = toInt x
  · subst hk; exact ⟨le_rfl, fun h => absurd rfl h⟩
  · have far : 1 / 2 ≤ |x - k| := by
      rcases lt_or_gt_of_ne hk with h | h
      · have : (k : ℚ) + 1 ≤ toInt x := by exact_mod_cast h
        rw [le_abs]; left; linarith
      · have : (toInt x : ℚ) + 1 ≤ k := by exact_mod_cast h
        rw [le_abs]; right; linarith
    refine ⟨ha.trans far, fun _ he => ?_⟩
    have e1 : |x - toInt x| = 1 / 2 := le_antisymm ha (he ▸ far)
    have e2 : |x - k| = 1 / 2 := he.trans e1
    constructor
    · have f1 := Int.floor_le x
      have f2 := Int.lt_floor_add_one x
      unfold toInt at e1 ⊢
      simp only at e1 ⊢
      by_cases c1 : x - ⌊x⌋ < 1 / 2
      · rw [if_pos c1, abs_of_nonneg (by linarith)] at e1
        linarith
      · rw [if_neg c1] at e1 ⊢
        by_cases c2 : 1 / 2 < x - ⌊x⌋
        · rw [if_pos c2] at e1
          push_cast at e1
          rw [abs_of_nonpos (by linarith)] at e1
          linarith
        · rw [if_neg c2]
          split
          · rename_i h; omega
          · rename_i h; omega
    · rcases (abs_eq (by norm_num)).1 e1 with p | p <;> rcases (abs_eq (by norm_num)).1 e2 with r | r
      · exfalso; apply hk; have : (k : ℚ) = toInt x := by linarith
        exact_mod_cast this
      · left; have : (k : ℚ) = toInt x + 1 := by linarith
        exact_mod_cast this
      · right; have : (k : ℚ) = toInt x - 1 := by linarith
        exact_mod_cast this
      · exfalso; apply hk; have : (k : ℚ) = toInt x := by linarith
        exact_mod_cast this

/-- A double is a multiple of the unit in the last place of `q`, or it is below the power of two below `q`. -/
theorem finite_grid {q w : ℚ} (hq : 0 < q) (hw : Finite w) :
    (∃ k : ℤ, w = k * 2 ^ ulpExp q) ∨ (ulpExp q = log2 q - 52 ∧ w < 2 ^ log2 q) := by
  obtain ⟨m, e, h1, h2, h3, rfl⟩ := hw
  rcases le_or_gt (ulpExp q) e with h | h
  · obtain ⟨k, hk⟩ := Int.le.dest h
    left
    refine ⟨m * 2 ^ k, ?_⟩
    rw [← hk, zpow_add₀ (by norm_num), zpow_natCast]
    push_cast
    ring
  · right
    have hu : ulpExp q = log2 q - 52 := by
      unfold ulpExp at h ⊢
      rcases le_total (log2 q) (-1022) with c | c
      · rw [max_eq_right c] at h; omega
      · rw [max_eq_left c]
    refine ⟨hu, ?_⟩
    have hm : (m : ℚ) < 2 ^ (53 : ℤ) := by exact_mod_cast (abs_lt.1 h1).2
    calc (m : ℚ) * 2 ^ e < 2 ^ (53 : ℤ) * 2 ^ e := mul_lt_mul_of_pos_right hm (two_zpow_pos e)
      _ = 2 ^ (53 + e) := by rw [zpow_add₀ (by norm_num)]
      _ ≤ 2 ^ log2 q := zpow_le_zpow_right₀ (by norm_num) (by omega)

theorem roundPos_nearest {q : ℚ} (hq : 0 < q) (hv : Finite (roundPos q)) : Nearest q (roundPos q) := by
  have hu := two_zpow_pos (ulpExp q)
  obtain ⟨g1, g2⟩ := log2_spec hq
  have scale : ∀ k : ℤ, |q - k * 2 ^ ulpExp q| = |q / 2 ^ ulpExp q - k| * 2 ^ ulpExp q := fun k => by
    conv_rhs => rw [← abs_of_pos hu]
    rw [← abs_mul]
    congr 1
    rw [sub_mul, abs_of_pos hu, div_mul_cancel₀ _ hu.ne']
  have best : ∀ k : ℤ, |q - roundPos q| ≤ |q - k * 2 ^ ulpExp q| := fun k => by
    unfold roundPos
    rw [scale, scale]
    exact mul_le_mul_of_nonneg_right (toInt_best _ k).1 hu.le
  have far : ∀ w, ulpExp q = log2 q - 52 → w < 2 ^ log2 q → |q - roundPos q| < |q - w| := fun w hul hw => by
    have e : (2 : ℚ) ^ log2 q = ((2 ^ 52 : ℤ) : ℚ) * 2 ^ ulpExp q := by
      rw [hul, show log2 q = 52 + (log2 q - 52) by ring, zpow_add₀ (by norm_num)]
      norm_num
    have h1 := best (2 ^ 52)
    rw [← e, abs_of_nonneg (by linarith : 0 ≤ q - 2 ^ log2 q)] at h1
    rw [abs_of_pos (by linarith : 0 < q - w)]
    linarith
  refine ⟨hv, fun w hw => ?_, fun w hw hne hd => ?_⟩
  · rcases finite_grid hq hw with ⟨k, rfl⟩ | ⟨h1, h2⟩
    · exact best k
    · exact (far w h1 h2).le
  · rcases finite_grid hq hw with ⟨k, rfl⟩ | ⟨h1, h2⟩
    · have hk : k ≠ toInt (q / 2 ^ ulpExp q) := fun h => hne (by rw [h]; rfl)
      have hd' : |q / 2 ^ ulpExp q - k| = |q / 2 ^ ulpExp q - toInt (q / 2 ^ ulpExp q)| := by
        unfold roundPos at hd
        rw [scale, scale] at hd
        exact mul_right_cancel₀ hu.ne' hd
      obtain ⟨⟨m, hm⟩, h2⟩ := (toInt_best _ k).2 hk hd'
      refine ⟨m, ulpExp q, ?_, ?_⟩
      · unfold roundPos
        rw [hm]; push_cast; ring
      · rcases h2 with h2 | h2
        · left; rw [h2, hm]; push_cast; ring
        · right; rw [h2, hm]; push_cast; ring
    · exact absurd hd (far w h1 h2).ne'

theorem roundPos_le (q : ℚ) : roundPos q ≤ q + 2 ^ ulpExp q := by
  have hu := two_zpow_pos (ulpExp q)
  have := mul_le_mul_of_nonneg_right (toInt_near (q / 2 ^ ulpExp q)).1 hu.le
  rw [sub_mul, div_mul_cancel₀ _ hu.ne'] at this
  unfold roundPos
  linarith

theorem roundPos_limit {q : ℚ} (hq : 0 < q) : roundPos q < limit ↔ q < overflow := by
  obtain ⟨g1, g2⟩ := log2_spec hq
  have hu := two_zpow_pos (ulpExp q)
  have hlim : limit = (2 : ℚ) ^ (1024 : ℤ) := by unfold limit; rw [← zpow_natCast]; rfl
  have hov : overflow = (2 : ℚ) ^ (1024 : ℤ) - 2 ^ (970 : ℤ) := by
    unfold overflow; rw [← zpow_natCast, ← zpow_natCast]; rfl
  rw [hlim, hov]
  clear hlim hov
  have p0 : (0 : ℚ) < 2 ^ (970 : ℤ) := two_zpow_pos _
  have e971 : (2 : ℚ) ^ (971 : ℤ) = 2 * 2 ^ (970 : ℤ) := by
    rw [show (971 : ℤ) = 1 + 970 by norm_num, zpow_add₀ (by norm_num), zpow_one]
  have e1024 : (2 : ℚ) ^ (1024 : ℤ) = ((2 ^ 53 : ℤ) : ℚ) * 2 ^ (971 : ℤ) := by
    rw [show (1024 : ℤ) = 53 + 971 by norm_num, zpow_add₀ (by norm_num)]; congr 1
  rcases lt_trichotomy (log2 q) 1023 with h | h | h
  · have e1 : q < 2 ^ (1023 : ℤ) := g2.trans_le (zpow_le_zpow_right₀ (by norm_num) (by omega))
    have e2 : (2 : ℚ) ^ (1024 : ℤ) = 2 ^ (1023 : ℤ) + 2 ^ (1023 : ℤ) := by
      rw [show (1024 : ℤ) = 1023 + 1 by norm_num, zpow_add₀ (by norm_num), zpow_one, mul_two]
    have e3 : (2 : ℚ) ^ (970 : ℤ) ≤ 2 ^ (1023 : ℤ) := zpow_le_zpow_right₀ (by norm_num) (by norm_num)
    have hulp : ulpExp q ≤ 970 := by
      unfold ulpExp
      have : max (log2 q) (-1022) ≤ 1022 := max_le (by omega) (by norm_num)
      omega
    have h2 := roundPos_le q
    have h3 : (2 : ℚ) ^ ulpExp q ≤ 2 ^ (970 : ℤ) := zpow_le_zpow_right₀ (by norm_num) hulp
    rw [e2]
    clear e1024 e971 e2
    generalize (2 : ℚ) ^ (1023 : ℤ) = A at *
    generalize (2 : ℚ) ^ (970 : ℤ) = B at *
    exact iff_of_true (by linarith) (by linarith)
  · have hulp : ulpExp q = 971 := by unfold ulpExp; rw [h]; norm_num
    have p := two_zpow_pos 971
    rw [h, show (1023 : ℤ) + 1 = 1024 by norm_num, e1024] at g2
    rw [e1024]
    unfold roundPos
    rw [hulp]
    have hx : q / 2 ^ (971 : ℤ) * 2 ^ (971 : ℤ) = q := div_mul_cancel₀ _ p.ne'
    clear g1 hu e1024
    generalize hx' : q / 2 ^ (971 : ℤ) = x at *
    clear hx'
    generalize (2 : ℚ) ^ (971 : ℤ) = A at *
    generalize (2 : ℚ) ^ (970 : ℤ) = B at *
    subst e971
    rw [← hx] at g2 ⊢
    have up : x < ((2 ^ 53 : ℤ) : ℚ) := lt_of_mul_lt_mul_right g2 p.le
    rw [mul_lt_mul_iff_left₀ p]
    have hiff : x * (2 * B) < ((2 ^ 53 : ℤ) : ℚ) * (2 * B) - B ↔ x < ((2 ^ 53 : ℤ) : ℚ) - 1 / 2 := by
      rw [show ((2 ^ 53 : ℤ) : ℚ) * (2 * B) - B = (((2 ^ 53 : ℤ) : ℚ) - 1 / 2) * (2 * B) by ring, mul_lt_mul_iff_left₀ p]
    rw [hiff]
    constructor
    · intro hh
      by_contra hc
      push Not at hc
      have hi : toInt x < 2 ^ 53 := by exact_mod_cast hh
      have fl : ⌊x⌋ = 2 ^ 53 - 1 := by
        rw [Int.floor_eq_iff]
        push_cast at hc up ⊢
        constructor <;> linarith
      unfold toInt at hi
      simp only at hi
      rw [fl] at hi
      have c1 : ¬ x - ((2 ^ 53 - 1 : ℤ) : ℚ) < 1 / 2 := by push_cast at hc ⊢; linarith
      rw [if_neg c1] at hi
      split at hi
      · omega
      · split at hi <;> omega
    · intro hh
      have := (toInt_near x).1
      generalize ((2 ^ 53 : ℤ) : ℚ) = C at *
      linarith
  · have hl : (1024 : ℤ) ≤ log2 q := by omega
    have e1 : (2 : ℚ) ^ (1024 : ℤ) ≤ 2 ^ log2 q := zpow_le_zpow_right₀ (by norm_num) hl
    have hulp : ulpExp q = log2 q - 52 := by unfold ulpExp; rw [max_eq_left (by omega)]
    have e2 : ((2 ^ 52 : ℤ) : ℚ) * 2 ^ ulpExp q = 2 ^ log2 q := by
      conv_rhs => rw [show log2 q = 52 + ulpExp q by rw [hulp]; ring]
      rw [zpow_add₀ (by norm_num)]
      norm_num
    have h2 : ((2 ^ 52 : ℤ) : ℚ) ≤ q / 2 ^ ulpExp q := by
      rw [le_div_iff₀ hu, e2]
      exact g1
    have h3 := (toInt_near (q / 2 ^ ulpExp q)).2
    have h4 : (2 ^ 52 : ℤ) ≤ toInt (q / 2 ^ ulpExp q) := by
      by_contra hc
      push Not at hc
      have : (toInt (q / 2 ^ ulpExp q) : ℚ) + 1 ≤ ((2 ^ 52 : ℤ) : ℚ) := by exact_mod_cast hc
      linarith
    have h5 : ((2 ^ 52 : ℤ) : ℚ) ≤ toInt (q / 2 ^ ulpExp q) := by exact_mod_cast h4
    have h6 := mul_le_mul_of_nonneg_right h5 hu.le
    rw [e2] at h6
    have h7 : (2 : ℚ) ^ log2 q ≤ roundPos q := h6
    clear e971 e1024
    generalize (2 : ℚ) ^ (1024 : ℤ) = A at *
    generalize (2 : ℚ) ^ (970 : ℤ) = B at *
    exact iff_of_false (by linarith) (by linarith)

theorem round_limit (q : ℚ) : |B64.round q| < limit ↔ |q| < overflow := by
  have ov : (0 : ℚ) < overflow := sub_pos.2 (pow_lt_pow_right₀ (by norm_num) (by norm_num))
  have lim : (0 : ℚ) < limit := by unfold limit; norm_num
  rcases lt_trichotomy q 0 with hq | hq | hq
  · have e : B64.round q = -roundPos (-q) := by unfold B64.round; rw [if_neg hq.ne, if_pos hq]
    rw [e, abs_neg, abs_of_nonneg (roundPos_nonneg (by linarith)), abs_of_neg hq]
    exact roundPos_limit (by linarith)
  · subst hq
    rw [B64.round_zero, abs_zero]
    exact iff_of_true lim ov
  · have e : B64.round q = roundPos q := by unfold B64.round; rw [if_neg hq.ne', if_neg (by linarith)]
    rw [e, abs_of_nonneg (roundPos_nonneg hq.le), abs_of_pos hq]
    exact roundPos_limit hq

theorem round_nearest {q : ℚ} (h : |q| < overflow) : Nearest q (B64.round q) := by
  have hl := (round_limit q).2 h
  have hf : Finite (B64.round q) := finite_of_rep ((rep_round q).2 hl)
  rcases lt_trichotomy q 0 with hq | hq | hq
  · have e : B64.round q = -roundPos (-q) := by unfold B64.round; rw [if_neg hq.ne, if_pos hq]
    have := (roundPos_nearest (q := -q) (by linarith) (by rw [e] at hf; simpa using hf.neg)).neg
    rwa [neg_neg, ← e] at this
  · subst hq
    rw [B64.round_zero] at hf ⊢
    refine ⟨hf, fun w hw => by simp, fun w hw hne hd => ?_⟩
    rw [sub_self, abs_zero, abs_eq_zero] at hd
    exact absurd (by linarith) hne
  · have e : B64.round q = roundPos q := by unfold B64.round; rw [if_neg hq.ne', if_neg (by linarith)]
    rw [e] at hf ⊢
    exact roundPos_nearest hq hf

/-- **C97**: rounding. Below the threshold the result is the nearest double, ties to even, with the sign of the number even if it
is zero; from the threshold on it is infinite. -/
theorem C97_round (q : ℚ) :
    (|q| < overflow → ∃ v, Val (pack q) v ∧ Nearest q v) ∧ (overflow ≤ |q| → pack q = .inf (decide (q < 0))) ∧
      isNeg (pack q) = decide (q < 0) := by
  have key : ¬ |q| < overflow → pack q = .inf (decide (q < 0)) := fun h => by
    have hl : ¬ |B64.round q| < limit := fun hl => h ((round_limit q).1 hl)
    unfold pack
    rw [if_neg, dif_neg fun h => hl h.2]
    rintro ⟨h0, -⟩
    exact hl (by rw [h0, abs_zero]; unfold limit; norm_num)
  refine ⟨fun h => ⟨_, val_pack ((round_limit q).2 h), round_nearest h⟩, fun h => key (not_lt.2 h), ?_⟩
  by_cases h : |q| < overflow
  · have hr : Rep (B64.round q) := (rep_round q).2 ((round_limit q).2 h)
    unfold pack
    by_cases h0 : B64.round q = 0 ∧ q < 0
    · rw [if_pos h0]; simp [isNeg, h0.2]
    · rw [if_neg h0, dif_pos hr]
      simp only [isNeg, decide_eq_decide]
      rcases lt_trichotomy q 0 with hq | hq | hq
      · refine iff_of_true ?_ hq
        have e : B64.round q = -roundPos (-q) := by unfold B64.round; rw [if_neg hq.ne, if_pos hq]
        have h1 := roundPos_nonneg (q := -q) (by linarith)
        exact lt_of_le_of_ne (by rw [e]; linarith) fun h => h0 ⟨h, hq⟩
      · subst hq; rw [B64.round_zero]
      · have e : B64.round q = roundPos q := by unfold B64.round; rw [if_neg hq.ne', if_neg (by linarith)]
        rw [e]
        exact iff_of_false (not_lt.2 (roundPos_nonneg hq.le)) (by linarith)
  · rw [key h]; rfl

/-- What an operation on finite doubles must give: the exact result `q`, rounded. -/
def Rounded (q : ℚ) (z : B64) : Prop :=
  (|q| < overflow → ∃ v, Val z v ∧ Nearest q v) ∧ (overflow ≤ |q| → z = .inf (decide (q < 0))) ∧
    (q ≠ 0 → isNeg z = decide (q < 0))

theorem rounded_pack (q : ℚ) : Rounded q (pack q) :=
  ⟨(C97_round q).1, (C97_round q).2.1, fun _ => (C97_round q).2.2⟩

theorem rounded_zero {z : B64} (h : Val z 0) : Rounded 0 z := by
  refine ⟨fun ho => ⟨0, h, by simpa only [B64.round_zero] using round_nearest ho⟩, fun ho => ?_, fun h => absurd rfl h⟩
  rw [abs_zero] at ho
  exact absurd ho (not_le.2 (sub_pos.2 (pow_lt_pow_right₀ (by norm_num) (by norm_num))))

theorem rounded_self {z : B64} {q : ℚ} (h : Val z q) : Rounded q z := by
  rcases h.cases with ⟨rfl, rfl⟩ | ⟨hq, rfl⟩
  · exact rounded_zero rfl
  · rw [← pack_rep hq]; exact rounded_pack q

/-- **C97**: the four operations on finite doubles give the exact result, rounded. -/
theorem C97_operations {x y : B64} {a b : ℚ} (hx : Val x a) (hy : Val y b) :
    Rounded (a + b) (B64.add x y) ∧ Rounded (a - b) (B64.sub x y) ∧ Rounded (a * b) (B64.mul x y) ∧
      (b ≠ 0 → Rounded (a / b) (B64.div x y)) ∧ Rounded (-a) (B64.neg x) := by
  have hadd : ∀ {x y : B64} {a b : ℚ}, Val x a → Val y b → Rounded (a + b) (B64.add x y) := by
    intro x y a b hx hy
    rcases hx.cases with ⟨rfl, rfl⟩ | ⟨ha, rfl⟩
    · rw [zero_add]
      rcases hy.cases with ⟨rfl, rfl⟩ | ⟨hb, rfl⟩ <;> exact rounded_self hy
    · rcases hy.cases with ⟨rfl, rfl⟩ | ⟨hb, rfl⟩
      · rw [add_zero]; exact rounded_self hx
      · exact rounded_pack _
  have hz : ∀ n, Val (signedZero n) 0 := fun n => by cases n <;> rfl
  refine ⟨hadd hx hy, ?_, ?_, fun hb0 => ?_, rounded_self (val_neg hx)⟩
  · rw [sub_eq_add_neg]; exact hadd hx (val_neg hy)
  · have key : ∀ n, Rounded (a * b) (if a * b = 0 then signedZero n else pack (a * b)) := fun n => by
      split
      · rename_i h; rw [h]; exact rounded_zero (hz n)
      · exact rounded_pack _
    rcases hx.cases with ⟨rfl, rfl⟩ | ⟨ha, rfl⟩ <;> rcases hy.cases with ⟨rfl, rfl⟩ | ⟨hb, rfl⟩ <;> exact key _
  · have key : ∀ n u, Rounded (a / b) (if b = 0 then u else if a = 0 then signedZero n else pack (a / b)) := fun n u => by
      rw [if_neg hb0]
      split
      · rename_i h; rw [h, zero_div]; exact rounded_zero (hz n)
      · exact rounded_pack _
    rcases hx.cases with ⟨rfl, rfl⟩ | ⟨ha, rfl⟩ <;> rcases hy.cases with ⟨rfl, rfl⟩ | ⟨hb, rfl⟩
    · exact absurd rfl hb0
    · exact key _ _
    · exact absurd rfl hb0
    · exact key _ _

theorem isNeg_signedZero (n : Bool) : isNeg (signedZero n) = n := by cases n <;> rfl

theorem isNeg_fin_iff {q : ℚ} (h : Rep q) : isNeg (.fin q h) = decide (q < 0) := rfl

/-- **C97**: the sign of a product or a quotient is that of the rules for signs, also for zeros and infinities; the negative has
the other sign. Sums of zeros: `-0 + -0` is `-0`, and numbers that cancel give `+0`. -/
theorem C97_signs (x y : B64) :
    (B64.mul x y ≠ .nan → isNeg (B64.mul x y) = (isNeg x != isNeg y)) ∧
      (B64.div x y ≠ .nan → isNeg (B64.div x y) = (isNeg x != isNeg y)) ∧
      (x ≠ .nan → isNeg (B64.neg x) = !isNeg x) ∧
      B64.add .negZero .negZero = .negZero ∧
      (∀ a, Val x a → Val y (-a) → ¬ (x = .negZero ∧ y = .negZero) → B64.add x y = B64.zero) := by
  have mulSign : ∀ a b : ℚ, a * b ≠ 0 → decide (a * b < 0) = (decide (a < 0) != decide (b < 0)) := by
    intro a b h
    have ha : a ≠ 0 := left_ne_zero_of_mul h
    have hb : b ≠ 0 := right_ne_zero_of_mul h
    rcases lt_or_gt_of_ne ha with h1 | h1 <;> rcases lt_or_gt_of_ne hb with h2 | h2
    · simp [h1, h2, not_lt.2 (mul_pos_of_neg_of_neg h1 h2).le]
    · simp [h1, not_lt.2 h2.le, mul_neg_of_neg_of_pos h1 h2]
    · simp [h2, not_lt.2 h1.le, mul_neg_of_pos_of_neg h1 h2]
    · simp [not_lt.2 h1.le, not_lt.2 h2.le, not_lt.2 (mul_pos h1 h2).le]
  have divSign : ∀ a b : ℚ, a ≠ 0 → b ≠ 0 → decide (a / b < 0) = (decide (a < 0) != decide (b < 0)) := by
    intro a b ha hb
    have := mulSign a b⁻¹ (mul_ne_zero ha (inv_ne_zero hb))
    rw [div_eq_mul_inv, this]
    congr 2
    exact propext inv_lt_zero
  refine ⟨?_, ?_, ?_, rfl, ?_⟩
  · intro h
    have fin : ∀ (a b : ℚ) (n m : Bool), (a ≠ 0 → n = decide (a < 0)) → (b ≠ 0 → m = decide (b < 0)) →
        isNeg (if a * b = 0 then signedZero (n != m) else pack (a * b)) = (n != m) := by
      intro a b n m h1 h2
      split
      · exact isNeg_signedZero _
      · rename_i hab
        rw [(C97_round _).2.2, mulSign a b hab, h1 (left_ne_zero_of_mul hab), h2 (right_ne_zero_of_mul hab)]
    cases x with
    | nan => exact absurd rfl h
    | inf s =>
      cases y with
      | nan => exact absurd rfl h
      | inf s' => rfl
      | negZero => exact absurd rfl h
      | fin b hb =>
        change (if b = 0 then B64.nan else _) ≠ _ at h
        change isNeg (if b = 0 then B64.nan else _) = _
        split at h
        · exact absurd rfl h
        · rename_i h0; rw [if_neg h0]; rfl
    | negZero =>
      cases y with
      | nan => exact absurd rfl h
      | inf s' => exact absurd rfl h
      | negZero => exact fin 0 0 true true (by simp) (by simp)
      | fin b hb => exact fin 0 b true _ (by simp) (fun _ => rfl)
    | fin a ha =>
      cases y with
      | nan => exact absurd rfl h
      | inf s' =>
        change (if a = 0 then B64.nan else _) ≠ _ at h
        change isNeg (if a = 0 then B64.nan else _) = _
        split at h
        · exact absurd rfl h
        · rename_i h0; rw [if_neg h0]; rfl
      | negZero => exact fin a 0 _ true (fun _ => rfl) (by simp)
      | fin b hb => exact fin a b _ _ (fun _ => rfl) (fun _ => rfl)
  · intro h
    have fin : ∀ (a b : ℚ) (n m : Bool), (a ≠ 0 → n = decide (a < 0)) → (b ≠ 0 → m = decide (b < 0)) →
        (if b = 0 then if a = 0 then B64.nan else .inf (n != m) else if a = 0 then signedZero (n != m) else pack (a / b)) ≠
          .nan →
        isNeg (if b = 0 then if a = 0 then B64.nan else .inf (n != m) else
          if a = 0 then signedZero (n != m) else pack (a / b)) = (n != m) := by
      intro a b n m h1 h2 h
      by_cases hb : b = 0
      · rw [if_pos hb] at h ⊢
        by_cases ha : a = 0
        · rw [if_pos ha] at h; exact absurd rfl h
        · rw [if_neg ha]; rfl
      · rw [if_neg hb]
        by_cases ha : a = 0
        · rw [if_pos ha]; exact isNeg_signedZero _
        · rw [if_neg ha, (C97_round _).2.2, divSign a b ha hb, h1 ha, h2 hb]
    cases x with
    | nan => exact absurd rfl h
    | inf s =>
      cases y with
      | nan => exact absurd rfl h
      | inf s' => exact absurd rfl h
      | negZero => rfl
      | fin b hb => rfl
    | negZero =>
      cases y with
      | nan => exact absurd rfl h
      | inf s' => exact isNeg_signedZero _
      | negZero => exact fin 0 0 true true (by simp) (by simp) h
      | fin b hb => exact fin 0 b true _ (by simp) (fun _ => rfl) h
    | fin a ha =>
      cases y with
      | nan => exact absurd rfl h
      | inf s' => exact isNeg_signedZero _
      | negZero => exact fin a 0 _ true (fun _ => rfl) (by simp) h
      | fin b hb => exact fin a b _ _ (fun _ => rfl) (fun _ => rfl) h
  · intro h
    cases x with
    | nan => exact absurd rfl h
    | inf s => rfl
    | negZero => rfl
    | fin a ha =>
      by_cases h0 : a = 0
      · subst h0; rfl
      · rw [neg_fin ha h0]
        change decide (-a < 0) = !decide (a < 0)
        rcases lt_or_gt_of_ne h0 with h1 | h1
        · simp [h1, h1.le]
        · simp [h1, h1.le]
  · intro a hx hy hne
    have zz : ∀ {z : B64}, Val z 0 → z ≠ .negZero → z = B64.zero := by
      intro z hz hn
      rcases hz.cases with ⟨rfl, -⟩ | ⟨h, rfl⟩
      · exact absurd rfl hn
      · rfl
    rcases hx.cases with ⟨rfl, rfl⟩ | ⟨ha, rfl⟩
    · rw [neg_zero] at hy
      rw [zz hy fun h => hne ⟨rfl, h⟩]
      rfl
    · rcases hy.cases with ⟨rfl, h0⟩ | ⟨hb, rfl⟩
      · have h0 : a = 0 := by linarith
        subst h0
        rfl
      · change pack (a + -a) = _
        rw [add_neg_cancel, pack_rep rep_zero]
        rfl

/-- An infinity, a zero. -/
def IsInf (x : B64) : Prop := x = .inf true ∨ x = .inf false
def IsZero (x : B64) : Prop := x = .negZero ∨ x = B64.zero

theorem pack_ne_nan (q : ℚ) : pack q ≠ .nan := by
  unfold pack
  split
  · simp
  · split <;> simp

theorem signedZero_ne_nan (n : Bool) : signedZero n ≠ .nan := by cases n <;> simp [signedZero, B64.zero]

theorem fin_zero_iff {q : ℚ} (h : Rep q) : IsZero (.fin q h) ↔ q = 0 := by
  constructor
  · rintro (h | h)
    · cases h
    · injection h
  · rintro rfl; right; rfl

/-- **C97**: NaN comes from NaN, from infinities that cancel, from zero times infinity, from the quotients 0/0 and ∞/∞, and from
nothing else; sums with one infinity and products with an infinity are infinite; a number divided by zero is infinite, and a
finite number divided by an infinity is a zero. -/
theorem C97_special (x y : B64) :
    (B64.add x y = .nan ↔ x = .nan ∨ y = .nan ∨ ∃ s, x = .inf s ∧ y = .inf !s) ∧
      (B64.mul x y = .nan ↔ x = .nan ∨ y = .nan ∨ (IsInf x ∧ IsZero y) ∨ (IsZero x ∧ IsInf y)) ∧
      (B64.div x y = .nan ↔ x = .nan ∨ y = .nan ∨ (IsInf x ∧ IsInf y) ∨ (IsZero x ∧ IsZero y)) ∧
      (∀ s a, Val y a → B64.add (.inf s) y = .inf s ∧ B64.add y (.inf s) = .inf s) ∧
      (IsInf x → B64.mul x y ≠ .nan → IsInf (B64.mul x y)) ∧ (IsInf y → B64.mul x y ≠ .nan → IsInf (B64.mul x y)) ∧
      (IsZero y → B64.div x y ≠ .nan → IsInf (B64.div x y)) ∧ (∀ s a, Val x a → IsZero (B64.div x (.inf s))) := by
  have inf : ∀ s, IsInf (.inf s) := fun s => by cases s; exacts [Or.inr rfl, Or.inl rfl]
  have ninf : ∀ q h, ¬ IsInf (.fin q h) := fun q h => by rintro (h | h) <;> cases h
  have ninf0 : ¬ IsInf .negZero := by rintro (h | h) <;> cases h
  have nz : ∀ s, ¬ IsZero (.inf s) := fun s => by rintro (h | h) <;> cases h
  have z0 : IsZero .negZero := Or.inl rfl
  refine ⟨?_, ?_, ?_, ?_, ?_, ?_, ?_, ?_⟩
  · cases x with
    | nan => exact iff_of_true rfl (Or.inl rfl)
    | inf s => cases y with
      | inf s' => cases s <;> cases s' <;> simp [B64.add]
      | _ => simp [B64.add]
    | negZero => cases y <;> simp [B64.add]
    | fin a ha => cases y <;> simp [B64.add, pack_ne_nan]
  · cases x with
    | nan => exact iff_of_true rfl (Or.inl rfl)
    | inf s => cases y with
      | nan => exact iff_of_true rfl (Or.inr (Or.inl rfl))
      | inf s' => simp [B64.mul, nz]
      | negZero => simp [B64.mul, inf, z0, B64.val]
      | fin b hb =>
        simp only [B64.mul, inf, nz, B64.val, fin_zero_iff]
        by_cases h : b = 0 <;> simp [h]
    | negZero => cases y with
      | nan => exact iff_of_true rfl (Or.inr (Or.inl rfl))
      | inf s' => simp [B64.mul, inf, z0, B64.val]
      | negZero => simp [B64.mul, B64.val, ninf0, signedZero_ne_nan]
      | fin b hb => simp [B64.mul, B64.val, ninf0, ninf, signedZero_ne_nan]
    | fin a ha => cases y with
      | nan => exact iff_of_true rfl (Or.inr (Or.inl rfl))
      | inf s' =>
        simp only [B64.mul, inf, nz, B64.val, fin_zero_iff]
        by_cases h : a = 0 <;> simp [h]
      | negZero => simp [B64.mul, B64.val, ninf0, ninf, signedZero_ne_nan]
      | fin b hb =>
        refine iff_of_false ?_ (by simp [ninf])
        change (if a * b = 0 then _ else _) ≠ _
        split
        · exact signedZero_ne_nan _
        · exact pack_ne_nan _
  · cases x with
    | nan => exact iff_of_true rfl (Or.inl rfl)
    | inf s => cases y with
      | nan => exact iff_of_true rfl (Or.inr (Or.inl rfl))
      | inf s' => simp [B64.div, inf]
      | negZero => simp [B64.div, ninf0, nz]
      | fin b hb => simp [B64.div, ninf, nz]
    | negZero => cases y with
      | nan => exact iff_of_true rfl (Or.inr (Or.inl rfl))
      | inf s' => simp [B64.div, nz, ninf0, signedZero_ne_nan]
      | negZero => simp [B64.div, B64.val, z0]
      | fin b hb =>
        by_cases h : b = 0
        · simp [B64.div, B64.val, z0, h, fin_zero_iff]
        · simp [B64.div, B64.val, h, fin_zero_iff, ninf0, signedZero_ne_nan]
    | fin a ha => cases y with
      | nan => exact iff_of_true rfl (Or.inr (Or.inl rfl))
      | inf s' => simp [B64.div, nz, ninf, signedZero_ne_nan]
      | negZero =>
        simp only [B64.div, B64.val, z0, ninf, fin_zero_iff]
        by_cases h : a = 0 <;> simp [h]
      | fin b hb =>
        by_cases h : b = 0
        · simp [B64.div, B64.val, h, fin_zero_iff, ninf]
        · refine iff_of_false ?_ (by simp [ninf, fin_zero_iff, h])
          change (if b = 0 then _ else if a = 0 then _ else _) ≠ _
          rw [if_neg h]
          split
          · exact signedZero_ne_nan _
          · exact pack_ne_nan _
  · intro s a hy
    rcases hy.cases with ⟨rfl, -⟩ | ⟨h, rfl⟩ <;> exact ⟨rfl, rfl⟩
  · intro hx hn
    obtain ⟨s, rfl⟩ : ∃ s, x = .inf s := by rcases hx with h | h; exacts [⟨_, h⟩, ⟨_, h⟩]
    cases y with
    | nan => exact absurd rfl hn
    | inf s' => exact inf _
    | negZero => exact absurd rfl hn
    | fin b hb =>
      change (if b = 0 then B64.nan else .inf _) ≠ _ at hn
      change IsInf (if b = 0 then B64.nan else .inf _)
      split at hn
      · exact absurd rfl hn
      · rename_i h; rw [if_neg h]; exact inf _
  · intro hy hn
    obtain ⟨s, rfl⟩ : ∃ s, y = .inf s := by rcases hy with h | h; exacts [⟨_, h⟩, ⟨_, h⟩]
    cases x with
    | nan => exact absurd rfl hn
    | inf s' => exact inf _
    | negZero => exact absurd rfl hn
    | fin b hb =>
      change (if b = 0 then B64.nan else .inf _) ≠ _ at hn
      change IsInf (if b = 0 then B64.nan else .inf _)
      split at hn
      · exact absurd rfl hn
      · rename_i h; rw [if_neg h]; exact inf _
  · intro hy hn
    rcases hy with rfl | rfl <;> cases x with
    | nan => exact absurd rfl hn
    | inf s' => exact inf _
    | negZero => exact absurd rfl hn
    | fin a ha =>
      change (if a = 0 then B64.nan else .inf _) ≠ _ at hn
      change IsInf (if a = 0 then B64.nan else .inf _)
      split at hn
      · exact absurd rfl hn
      · rename_i h; rw [if_neg h]; exact inf _
  · intro s a hx
    have : ∀ n, IsZero (signedZero n) := fun n => by cases n; exacts [Or.inr rfl, Or.inl rfl]
    rcases hx.cases with ⟨rfl, -⟩ | ⟨h, rfl⟩ <;> exact this _

/-- **C97**: comparisons. Finite doubles compare like their values, so that `-0 == 0`; infinities lie outside; a NaN is not less
than, equal to or greater than anything. -/
theorem C97_comparisons (x y : B64) :
    (∀ a b, Val x a → Val y b → (B64.lt x y = decide (a < b) ∧ B64.eq x y = decide (a = b) ∧ B64.le x y = decide (a ≤ b))) ∧
      (∀ a, Val x a → B64.lt x (.inf false) = true ∧ B64.lt (.inf true) x = true) ∧ B64.lt (.inf true) (.inf false) = true ∧
      B64.lt .nan x = false ∧ B64.lt x .nan = false ∧ B64.eq .nan x = false ∧ B64.eq x .nan = false ∧
      B64.le .nan x = false ∧ B64.le x .nan = false := by
  have heq : ∀ a b, Val x a → Val y b → B64.eq x y = decide (a = b) := by
    intro a b hx hy
    unfold B64.eq
    rw [hx, hy]
    simp
  have n1 : ∀ x, B64.lt x .nan = false := fun x => by unfold B64.lt; cases x with
    | inf s => cases s <;> rfl
    | _ => rfl
  have n2 : ∀ x, B64.eq x .nan = false := fun x => by unfold B64.eq; cases x with
    | inf s => cases s <;> rfl
    | _ => rfl
  refine ⟨fun a b hx hy => ⟨val_lt hx hy, heq a b hx hy, ?_⟩, fun a hx => ?_, by decide +kernel, rfl, n1 x, rfl, n2 x, rfl, ?_⟩
  · unfold B64.le
    rw [val_lt hx hy, heq a b hx hy, ← Bool.decide_or]
    exact decide_eq_decide.2 le_iff_lt_or_eq.symm
  · unfold B64.lt
    rw [hx]
    exact ⟨by simp [key], by simp [key]⟩
  · unfold B64.le
    rw [n1, n2]
    rfl

/-! ### examples -/

/-- `0.1 + 0.2`: both are rounded, and so is the sum. -/
example : ∃ v, Val (B64.add (pack (1 / 10)) (pack (2 / 10))) v ∧ v ≠ 3 / 10 ∧ v ≠ B64.round (3 / 10) :=
  ⟨5404319552844596 / 2 ^ 54, by unfold Val; decide +kernel, by decide +kernel, by decide +kernel⟩

/-- A tie: `2 ^ 53 + 1` lies between two doubles, and the even one is taken. -/
example : Nearest (2 ^ 53 + 1) (2 ^ 53) := by
  have h := round_nearest (q := 2 ^ 53 + 1) (by unfold overflow; decide +kernel)
  rwa [show B64.round (2 ^ 53 + 1) = 2 ^ 53 by decide +kernel] at h

/-- A negative number too small for a double is `-0`. -/
example : pack (-1 / 2 ^ 1080) = .negZero := by decide +kernel

end Arctic
