import Verif.Props.RoundImage
import Verif.Lemmas.WellFill
import Verif.Lemmas.FloatFill

/-!
# C93: the well filling of a CCD in double precision, and the size of the error for a large image
-/

set_option linter.unusedSectionVars false
set_option linter.unusedVariables false

namespace Arctic
namespace Fp

open B64

/-- `x ** beta` for `low ≤ x ≤ 1`: off by at most `δ` from the power `p`. -/
def PowNear (pow : B64 → B64 → B64) (beta : B64) (p low δ : ℝ) : Prop :=
  ∀ (x : B64) (a : ℚ), Val x a → low ≤ (a : ℝ) → a ≤ 1 → ∃ v, Val (pow x beta) v ∧ 0 < v ∧ v ≤ 1 ∧ |(v : ℝ) - (a : ℝ) ^ p| ≤ δ

theorem rep_one : B64.Rep 1 := (val_one).rep

/-- `well_filling_function` in double precision, for notch depth zero. -/
theorem wellFill_near {pow : B64 → B64 → B64} {full beta : B64} {W : ℚ} (hW : Val full W) (hW1 : 1 ≤ W)
    {f : ℝ → ℝ} {p δ b lo hi L : ℝ} (hpow : PowNear pow beta p (b / W) δ) (hf : LipFill f L) (hb : 0 < b) (hbW : b ≤ W)
    (hfb : ∀ z, b ≤ z → Arctic.wellFill W p z = f z) (hlo : b + W * Scale.u ≤ lo) (hhi : hi ≤ ((3 * big : ℚ) : ℝ)) :
    FillNear (Fp.wellFill D pow B64.zero full beta) f (δ + L * (W * Scale.u)) lo hi := by
  intro y a hy ha ha'
  have hu := Scale.u_pos
  have hW0 : 0 < W := by linarith
  have hWR : (0 : ℝ) < W := by exact_mod_cast hW0
  have hWu : 0 ≤ W * Scale.u := mul_nonneg hWR.le hu.le
  have ha0 : 0 < a := by
    have : (0 : ℝ) < a := by linarith
    exact_mod_cast this
  have hab : a ≤ 3 * big := by exact_mod_cast ha'.trans hhi
  have hL := hf.nonneg_slope
  have hne : D.eq y D.zero = false := by
    change B64.eq y B64.zero = false
    rw [val_eq hy val_zero]
    simpa using ha0.ne'
  have s1 : Val (D.sub y B64.zero) a := by
    have := val_sub hy val_zero (by rw [sub_zero, hy.rep.1]; exact hy.rep.2)
    rwa [sub_zero, hy.rep.1] at this
  have s2 : Val (D.sub full B64.zero) W := by
    have := val_sub hW val_zero (by rw [sub_zero, hW.rep.1]; exact hW.rep.2)
    rwa [sub_zero, hW.rep.1] at this
  have hq0 : 0 < a / W := div_pos ha0 hW0
  have hqle : a / W ≤ a := div_le_self ha0.le hW1
  have s3 : Val (D.div (D.sub y B64.zero) (D.sub full B64.zero)) (B64.round (a / W)) :=
    val_div s1 s2 hW0.ne' (round_small (by rw [abs_of_pos hq0]; linarith))
  have hr0 : 0 ≤ B64.round (a / W) := round_mono_rep' (val_zero).rep hq0.le
  unfold Fp.wellFill
  rw [hne]
  simp only [Bool.false_eq_true, if_false]
  have hlev : ∀ x : ℚ, (x : ℝ) ∈ Set.Icc (0 : ℝ) 1 → Arctic.wellFill W p (W * x) = (x : ℝ) ^ p := by
    intro x hx
    unfold Arctic.wellFill
    rw [mul_div_cancel_left₀ _ hWR.ne', max_eq_right hx.1, min_eq_right hx.2]
  have hc1 : D.lt (D.div (D.sub y B64.zero) (D.sub full B64.zero)) D.zero = false := by
    change B64.lt _ B64.zero = false
    rw [val_lt s3 val_zero]
    simpa using hr0
  -- the level that is raised to the power
  have key : ∃ c, Val (clip01 D (D.div (D.sub y B64.zero) (D.sub full B64.zero))) c ∧ 0 ≤ c ∧ c ≤ 1 ∧ b ≤ (W : ℝ) * c ∧
      |f (W * c) - f a| ≤ L * (W * Scale.u) := by
    unfold clip01
    rw [hc1]
    simp only [Bool.false_eq_true, if_false]
    rcases le_or_gt 1 (a / W) with h1 | h1
    · have hr1 : 1 ≤ B64.round (a / W) := round_mono_rep' rep_one h1
      have hWa : W ≤ a := by rw [le_div_iff₀ hW0] at h1; linarith
      have hWaR : (W : ℝ) ≤ a := by exact_mod_cast hWa
      have hval : Val (if D.lt D.one (D.div (D.sub y B64.zero) (D.sub full B64.zero)) = true then D.one else
          D.div (D.sub y B64.zero) (D.sub full B64.zero)) 1 := by
        change Val (if B64.lt B64.one _ = true then B64.one else _) 1
        rw [val_lt val_one s3]
        by_cases h2 : 1 < B64.round (a / W)
        · simp only [h2, decide_true, if_true]; exact val_one
        · have : B64.round (a / W) = 1 := le_antisymm (not_lt.1 h2) hr1
          rw [this] at s3
          simp only [h2, decide_false, Bool.false_eq_true, if_false]
          exact s3
      refine ⟨1, hval, zero_le_one, le_rfl, by rw [Rat.cast_one, mul_one]; exact hbW, ?_⟩
      have e1 : f (W * ((1 : ℚ) : ℝ)) = 1 := by
        rw [← hfb _ (by rw [Rat.cast_one, mul_one]; exact hbW), hlev 1 (by simp)]
        simp
      have e2 : f a = 1 := by
        rw [← hfb _ (hbW.trans hWaR)]
        unfold Arctic.wellFill
        have : (1 : ℝ) ≤ (a : ℝ) / W := by rw [le_div_iff₀ hWR]; linarith
        rw [max_eq_right (by linarith), min_eq_left this, Real.one_rpow]
      rw [e1, e2, sub_self, abs_zero]
      exact mul_nonneg hL hWu
    · have hr1 : B64.round (a / W) ≤ 1 := round_mono_rep rep_one h1.le
      have herr := (round_err16 (q := a / W) (by rw [abs_of_pos hq0]; linarith)).1
      have herrR : |((B64.round (a / W) : ℚ) : ℝ) - (a : ℝ) / W| ≤ Scale.u := by
        have := ratCast_abs_le herr
        unfold Scale.u
        push_cast at this ⊢
        exact this
      have hdist : |(W : ℝ) * (B64.round (a / W) : ℚ) - a| ≤ W * Scale.u := by
        have e : (W : ℝ) * (B64.round (a / W) : ℚ) - a = W * (((B64.round (a / W) : ℚ) : ℝ) - (a : ℝ) / W) := by
          field_simp
        rw [e, abs_mul, abs_of_pos hWR]
        exact mul_le_mul_of_nonneg_left herrR hWR.le
      refine ⟨B64.round (a / W), ?_, hr0, hr1, ?_, ?_⟩
      · have : D.lt D.one (D.div (D.sub y B64.zero) (D.sub full B64.zero)) = false := by
          change B64.lt B64.one _ = false
          rw [val_lt val_one s3]
          simpa using hr1
        rw [this]
        simp only [Bool.false_eq_true, if_false]
        exact s3
      · rw [abs_le] at hdist
        linarith
      · have hlip : ∀ x y : ℝ, x ≤ y → |f x - f y| ≤ L * (y - x) := fun x y hxy => by
          rw [abs_sub_comm, abs_of_nonneg (by linarith [hf.mono hxy])]
          exact hf.lip x y hxy
        rcases le_total ((W : ℝ) * (B64.round (a / W) : ℚ)) a with h2 | h2
        · refine (hlip _ _ h2).trans (mul_le_mul_of_nonneg_left ?_ hL)
          rw [abs_le] at hdist
          linarith
        · rw [abs_sub_comm]
          refine (hlip _ _ h2).trans (mul_le_mul_of_nonneg_left ?_ hL)
          rw [abs_le] at hdist
          linarith
  obtain ⟨c, hc, hc0, hc1', hbc, hclose⟩ := key
  obtain ⟨v, hv, v0, v1, hve⟩ := hpow _ c hc (by rw [div_le_iff₀ hWR]; linarith) hc1'
  refine ⟨v, hv, v0, v1, ?_⟩
  have e1 : (c : ℝ) ^ p = f (W * c) := by
    rw [← hfb _ hbc, hlev c ⟨by exact_mod_cast hc0, by exact_mod_cast hc1'⟩]
  rw [e1] at hve
  exact (abs_sub_le _ _ _).trans (add_le_add hve hclose)

/-- A CCD with `well_fill_power` of at least one. -/
theorem fillSet_steep {c : Scale} (hc : c.Ok) {pow : B64 → B64 → B64} {full beta : B64} {W : ℚ} (hW : Val full W) (hW1 : 1 ≤ W)
    {p δ b lo : ℝ} (hp : 1 ≤ p) (hpow : PowNear pow beta p (b / W) δ) (hb : 0 < b) (hbW : b ≤ W)
    (hlo : b + W * Scale.u ≤ lo) (hL : p / W = c.L) (hφ : δ + c.L * (W * Scale.u) ≤ c.φ) (hfew : c.N * c.L ≤ 1)
    (hshort : c.short ≤ (1 - c.N * c.L) * lo) (hP : 2 * c.P ≤ big)
    (htall : (3 * c.T + 8) * Scale.u + c.φ < Arctic.wellFill W p lo) :
    FillSet c (Fp.wellFill D pow B64.zero full beta) (Arctic.wellFill W p) lo where
  lip := by
    rw [← hL]
    exact wellFill_lip (by exact_mod_cast (by linarith : 0 < W)) hp
  near := by
    have h := wellFill_near hW hW1 hpow (hL ▸ wellFill_lip (by exact_mod_cast (by linarith : 0 < W)) hp) hb hbW
      (fun _ _ => rfl) hlo (hi := 6 * c.P) (by push_cast; have : (2 : ℝ) * c.P ≤ big := by exact_mod_cast hP
                                               linarith)
    intro y a h1 h2 h3
    obtain ⟨x, x1, x2, x3, x4⟩ := h y a h1 h2 h3
    exact ⟨x, x1, x2, x3, x4.trans hφ⟩
  pos := by
    have : (0 : ℝ) ≤ W * Scale.u := mul_nonneg (by exact_mod_cast (by linarith : 0 ≤ W)) Scale.u_pos.le
    linarith
  few := hfew
  short := hshort
  tall := htall

/-- A CCD with `well_fill_power` of at most one, for clouds of more than `b` electrons. -/
theorem fillSet_shallow {c : Scale} (hc : c.Ok) {pow : B64 → B64 → B64} {full beta : B64} {W : ℚ} (hW : Val full W)
    (hW1 : 1 ≤ W) {p δ b lo : ℝ} (hp0 : 0 < p) (hp : p ≤ 1) (hpow : PowNear pow beta p (b / W) δ) (hb : 0 < b) (hbW : b ≤ W)
    (hlo : b + W * Scale.u ≤ lo) (hL : Arctic.wellFill W p b / b = c.L) (hφ : δ + c.L * (W * Scale.u) ≤ c.φ)
    (hfew : c.N * c.L ≤ 1) (hshort : c.short ≤ (1 - c.N * c.L) * lo) (hP : 2 * c.P ≤ big)
    (htall : (3 * c.T + 8) * Scale.u + c.φ < Arctic.wellFill W p lo) :
    FillSet c (Fp.wellFill D pow B64.zero full beta) (liftFill (Arctic.wellFill W p) b) lo ∧
      ∀ z, lo ≤ z → Arctic.wellFill W p z = liftFill (Arctic.wellFill W p) b z := by
  have hWR : (0 : ℝ) < W := by exact_mod_cast (by linarith : 0 < W)
  have hWu : (0 : ℝ) ≤ W * Scale.u := mul_nonneg hWR.le Scale.u_pos.le
  have hlip : LipFill (liftFill (Arctic.wellFill W p) b) c.L := by
    rw [← hL]
    exact (wellFill_concave hWR hp0 hp).lift hb
  refine ⟨⟨hlip, fun y a h1 h2 h3 => ?_, by linarith, hfew, hshort,
    by rw [liftFill_eq (by linarith)]; exact htall⟩, fun z hz => (liftFill_eq (by linarith)).symm⟩
  obtain ⟨x, x1, x2, x3, x4⟩ := wellFill_near hW hW1 hpow hlip hb hbW (fun z hz => (liftFill_eq hz).symm) hlo
    (hi := 6 * c.P) (by push_cast; have : (2 : ℝ) * c.P ≤ big := by exact_mod_cast hP
                        linarith) y a h1 h2 h3
  exact ⟨x, x1, x2, x3, x4.trans hφ⟩

/-! ### the size of the error -/

/-- Up to 2048 rows, groups of up to three species and 16 traps per pixel, a full well of 84700 electrons with power one,
clouds of up to 2 ^ 18 electrons; fractions kept are off by up to 2 ^ -48. -/
noncomputable def sizes : Scale := ⟨2048, 3, 16, 2 ^ 18, Scale.u, Scale.u, 1 / 84700⟩

theorem u_eq : Scale.u = 1 / 281474976710656 := by
  unfold Scale.u err
  norm_num

theorem sizes_ok : sizes.Ok where
  one_le := by change (1 : ℚ) ≤ 16; norm_num
  le_P := by change (16 : ℚ) ≤ 2 ^ 18; norm_num
  le_big := by change (2 : ℚ) ^ 18 ≤ 2 ^ 900; exact pow_le_pow_right₀ (by norm_num) (by norm_num)
  κ0 := Scale.u_pos.le
  φ0 := Scale.u_pos.le
  L0 := by change (0 : ℝ) ≤ 1 / 84700; norm_num
  small := by
    change 3 * ((2048 : ℕ) : ℚ) * ((3 : ℕ) + 3) * err ≤ 1
    unfold err
    norm_num

theorem sizes_bounds : sizes.net ≤ 1 / 100000000 ∧ sizes.gap ≤ 1 / 1000000000 ∧ sizes.rel ≤ 1 / 100000000 ∧
    sizes.short ≤ 1 / 10000000 := by
  unfold Scale.net Scale.short Scale.gap Scale.height Scale.rel Scale.trap Scale.fr sizes
  simp only [u_eq]
  norm_num

theorem sizes_row {G : ℕ} (hG : G ≤ 3) : sizes.row G 1 ≤ 1 / 20000000 := by
  have h1 := sizes_bounds.1
  have hG' : (G : ℝ) ≤ 3 := by exact_mod_cast hG
  have hP : ((sizes.P : ℚ) : ℝ) * Scale.u = 1 / 1073741824 := by
    rw [u_eq]
    change (((2 : ℚ) ^ 18 : ℚ) : ℝ) * _ = _
    norm_num
  unfold Scale.row Scale.gain
  rw [Rat.cast_one, one_mul, one_mul, hP]
  have h2 : sizes.net + 1 / 1073741824 ≤ 1 / 90000000 := by linarith
  have h3 : 0 ≤ sizes.net + 1 / 1073741824 := by linarith [sizes_ok.net0]
  have h4 := mul_le_mul hG' h2 h3 (by norm_num)
  linarith

theorem sizes_whole {G : ℕ} (hG : G ≤ 3) : Whole sizes G 1 where
  ok := sizes_ok
  net := by
    have := sizes_bounds.1
    change sizes.net ≤ ((16 : ℚ) : ℝ)
    push_cast
    linarith
  groups := by
    change (G : ℚ) * 16 ≤ 2 ^ 18
    have hG' : (G : ℚ) ≤ 3 := by exact_mod_cast hG
    linarith
  few := by
    have hG' : (G : ℚ) ≤ 3 := by exact_mod_cast hG
    unfold err
    have e : (2 : ℚ) ^ (-48 : ℤ) ≤ 1 / 3 := by norm_num
    exact (mul_le_mul hG' e (by positivity) (by norm_num)).trans (by norm_num)
  gain := by
    have h := sizes_row hG
    have h1 : (0 : ℝ) ≤ 2 * (((1 : ℚ) : ℝ) * sizes.P * Scale.u) := by
      rw [u_eq]
      change (0 : ℝ) ≤ 2 * (((1 : ℚ) : ℝ) * (((2 : ℚ) ^ 18 : ℚ) : ℝ) * _)
      norm_num
    unfold Scale.row at h
    rw [Rat.cast_one, one_mul, one_mul] at h
    rw [Rat.cast_one, one_mul] at h1
    change sizes.gain G ≤ (((2 : ℚ) ^ 18 : ℚ) : ℝ)
    norm_num
    linarith
  one := le_rfl
  big := by rw [one_mul]; exact sizes_ok.le_big

theorem sizes_totals {dwell : B64} {dw : ℝ} {groups : List (Group B64)} {traps : List Ref.Traps}
    (h : List.Forall₂ (GroupNear sizes dwell dw) groups traps) (hG : groups.length ≤ 3) :
    0 ≤ Ref.totals traps ∧ Ref.totals traps ≤ 48 := by
  refine ⟨Ref.totals_nonneg (reg_all h), ?_⟩
  have h1 : Ref.totals traps ≤ groups.length * 16 := by
    clear hG
    induction h with
    | nil => simp [Ref.totals]
    | @cons g t gs ts hg _ ih =>
      obtain ⟨p, keep, -, rfl, -⟩ := hg.kind
      have h2 := hg.dens.real_total
      have h3 : ((sizes.N : ℚ) : ℝ) = 16 := by change ((16 : ℚ) : ℝ) = 16; norm_num
      rw [h3] at h2
      have h4 : Ref.totals (⟨g.s, fun j => rl (g.dens j), keep, fun _ _ => 0⟩ :: ts) =
          (∑ j, rl (g.dens j)) + Ref.totals ts := by
        unfold Ref.totals
        rw [List.map_cons, List.sum_cons]
        rfl
      rw [h4, List.length_cons]
      push_cast
      linarith
  have h2 : (groups.length : ℝ) ≤ 3 := by exact_mod_cast hG
  linarith

theorem sizes_power {Λ : ℝ} (h0 : 0 ≤ Λ) (h : Λ ≤ 48) {K : ℕ} (hK : K ≤ 2048) : 1 / 4 ≤ (1 - Λ * sizes.L) ^ K := by
  have hL : sizes.L = 1 / 84700 := rfl
  rw [hL]
  have h1 : (1 - 48 / 84700 : ℝ) ≤ 1 - Λ * (1 / 84700) := by linarith
  have h2 : (0 : ℝ) ≤ 1 - Λ * (1 / 84700) := by linarith
  have h3 : 1 - Λ * (1 / 84700) ≤ 1 := by linarith
  refine le_trans ?_ (pow_le_pow_of_le_one h2 h3 hK)
  refine le_trans ?_ (pow_le_pow_left₀ (by norm_num) h1 2048)
  have h4 : (1 - 32 * (48 / 84700) : ℝ) ≤ (1 - 48 / 84700) ^ 32 := by
    have := one_add_mul_le_pow (a := -(48 / 84700 : ℝ)) (by norm_num) 32
    calc (1 - 32 * (48 / 84700) : ℝ) = 1 + ((32 : ℕ) : ℝ) * (-(48 / 84700 : ℝ)) := by norm_num
      _ ≤ (1 + -(48 / 84700 : ℝ)) ^ 32 := this
      _ = _ := by rw [← sub_eq_add_neg]
  calc (1 / 4 : ℝ) ≤ (98 / 100) ^ 64 := by norm_num
    _ ≤ ((1 - 48 / 84700) ^ 32) ^ 64 := pow_le_pow_left₀ (by norm_num) (le_trans (by norm_num) h4) 64
    _ = _ := by rw [← pow_mul]

/-- Python's `x ** 1.0`. -/
theorem powNear_one (low : ℝ) (hl : 0 < low) : PowNear (fun x _ => x) B64.one 1 low 0 := by
  intro x a hx h0 h1
  have : (0 : ℝ) < a := hl.trans_le h0
  exact ⟨a, hx, by exact_mod_cast this, h1, by simp⟩

/-- The filling law in double precision: notch 0, full well of 84700 electrons, power one. -/
def fill84700 : ℕ → B64 → B64 := fun _ => Fp.wellFill D (fun x _ => x) B64.zero (B64.pack 84700) B64.one

theorem val_84700 : Val (B64.pack 84700) 84700 := by
  have := val_int (z := 84700) (by norm_num)
  exact_mod_cast this

theorem sizes_fill : FillSet sizes (fill84700 0) (Arctic.wellFill 84700 1) (1 / 100) := by
  have h := fillSet_steep (c := sizes) sizes_ok (pow := fun x _ => x) (beta := B64.one) val_84700 (by norm_num) (p := 1)
    (δ := 0) (b := 1 / 1000) (lo := 1 / 100) le_rfl (powNear_one _ (by norm_num)) (by norm_num) (by norm_num)
    (by rw [u_eq]; norm_num) (by change (1 : ℝ) / ((84700 : ℚ) : ℝ) = 1 / 84700; norm_num)
    (by change (0 : ℝ) + 1 / 84700 * (((84700 : ℚ) : ℝ) * Scale.u) ≤ Scale.u
        have := Scale.u_pos
        push_cast
        linarith)
    (by change ((16 : ℚ) : ℝ) * (1 / 84700) ≤ 1; norm_num)
    (by have := sizes_bounds.2.2.2
        have e : ((sizes.N : ℚ) : ℝ) * sizes.L = 16 / 84700 := by change ((16 : ℚ) : ℝ) * (1 / 84700) = _; norm_num
        rw [e]
        linarith)
    (by change (2 : ℚ) * 2 ^ 18 ≤ 2 ^ 900
        calc (2 : ℚ) * 2 ^ 18 = 2 ^ 19 := by norm_num
          _ ≤ 2 ^ 900 := pow_le_pow_right₀ (by norm_num) (by norm_num))
    (by change (3 * ((2048 : ℕ) : ℝ) + 8) * Scale.u + Scale.u < _
        rw [u_eq]
        unfold Arctic.wellFill
        rw [Real.rpow_one, max_eq_right (by norm_num), min_eq_right (by norm_num)]
        norm_num)
  exact_mod_cast h

theorem sizes_precise {dwell : B64} {dw : ℝ} (hdwell : ∃ q : ℚ, Val dwell q ∧ 0 < q) (hdw : 0 < dw)
    {groups : List (Group B64)} {traps : List Ref.Traps} (hG : groups.length ≤ 3)
    (hg : List.Forall₂ (GroupNear sizes dwell dw) groups traps) (hok : ∀ t ∈ traps, t.Ok) :
    Precise sizes (fill84700 0) (Arctic.wellFill 84700 1) (1 / 100) dwell dw groups traps where
  whole := sizes_whole hG
  smooth := ⟨_, sizes_fill, fun _ _ => rfl⟩
  model := (wellFill_exact (by norm_num) (by norm_num)).1
  pos := (wellFill_exact (by norm_num) (by norm_num)).2
  dwell_val := hdwell
  dw_pos := hdw
  near := hg
  ok := hok
  few := by
    have := sizes_totals hg hG
    have hL : sizes.L = 1 / 84700 := rfl
    rw [hL]
    linarith

theorem sizes_room {G : ℕ} (hG : G ≤ 3) {Λ : ℝ} (h0 : 0 ≤ Λ) (h : Λ ≤ 48) {K : ℕ} (hK : K ≤ 2048) :
    Room sizes G 1 (1 / 100) Λ K 1 160000 := by
  have hrow := sizes_row hG
  have hrow0 := (sizes_whole hG).row0 sizes_ok.net0
  have hK' : (K : ℝ) ≤ 2048 := by exact_mod_cast hK
  have hKrow : K * sizes.row G 1 ≤ 2048 * (1 / 20000000) := mul_le_mul hK' hrow hrow0 (by norm_num)
  have hKΛ : K * Λ ≤ 2048 * 48 := mul_le_mul hK' h h0 (by norm_num)
  refine ⟨zero_le_one, ?_, ?_⟩
  · rw [Rat.cast_one, one_mul, mul_one]
    refine le_trans ?_ (sizes_power h0 h hK)
    have h1 := sizes_bounds.2.2.1
    have hP : ((sizes.P : ℚ) : ℝ) * Scale.u = 1 / 1073741824 := by
      rw [u_eq]
      change (((2 : ℚ) ^ 18 : ℚ) : ℝ) * _ = _
      norm_num
    rw [hP]
    linarith
  · rw [Rat.cast_one, one_mul, mul_add]
    change _ ≤ (((2 : ℚ) ^ 18 : ℚ) : ℝ)
    norm_num
    linarith

theorem sizes_readout {G : ℕ} (hG : G ≤ 3) {Λ : ℝ} (h0 : 0 ≤ Λ) (h : Λ ≤ 48) {n o : ℕ} (hn : n + o ≤ 2048) :
    sizes.readout G n o Λ ≤ 1 / 4 := by
  have hrow := sizes_row hG
  have hrow0 := (sizes_whole hG).row0 sizes_ok.net0
  have hgap := sizes_bounds.2.1
  have hgap0 := sizes_ok.gap0
  have hG' : (G : ℝ) ≤ 3 := by exact_mod_cast hG
  have hGg : G * sizes.gap ≤ 3 * (1 / 1000000000) := mul_le_mul hG' hgap hgap0 (by norm_num)
  have hGg0 : 0 ≤ G * sizes.gap := mul_nonneg (Nat.cast_nonneg _) hgap0
  have hn1 : (n : ℝ) ≤ 2048 := by exact_mod_cast (by omega : n ≤ 2048)
  have hn2 : ((n + o : ℕ) : ℝ) ≤ 2048 := by exact_mod_cast hn
  have hL : sizes.L = 1 / 84700 := rfl
  unfold Scale.readout Scale.pass
  rw [Rat.cast_one, one_mul, hL]
  have hd : (49 / 50 : ℝ) ≤ 1 - 2 * (Λ * (1 / 84700)) := by linarith
  have h1 : n * (sizes.row G 1 + G * sizes.gap) ≤ 2048 * (53 / 1000000000) :=
    mul_le_mul hn1 (by linarith) (by linarith) (by norm_num)
  have h2 : n * (sizes.row G 1 + G * sizes.gap) / (1 - 2 * (Λ * (1 / 84700))) ≤ 2048 * (53 / 1000000000) / (49 / 50) :=
    div_le_div₀ (by norm_num) h1 (by norm_num) hd
  have h3 : 0 ≤ n * (sizes.row G 1 + G * sizes.gap) / (1 - 2 * (Λ * (1 / 84700))) :=
    div_nonneg (mul_nonneg (Nat.cast_nonneg _) (by linarith)) (by linarith)
  refine (mul_le_mul hn2 h2 h3 (by norm_num)).trans ?_
  norm_num

end Fp

open Fp B64 in
/-- **C93**, the size of the error: for at most 2048 transfers, up to three groups of up to 16 traps per pixel, a full well of
84700 electrons with power one, and between one and 160000 electrons in every pixel, the errors of all pixels of a column
add up to at most a quarter of an electron, whatever the order in which `np.sum` adds. -/
theorem C93_size {sum : List B64 → B64} [AnyOrder sum] {dwell : B64} {dw : ℝ} (hdwell : ∃ q : ℚ, Val dwell q ∧ 0 < q) (hdw : 0 < dw)
    {groups : List (Group B64)} {traps : List Ref.Traps} (hG : groups.length ≤ 3)
    (hg : List.Forall₂ (GroupNear sizes dwell dw) groups traps) (hok : ∀ t ∈ traps, t.Ok)
    (img : Image B64) (hnr : 0 < img.nr) (i : Bool) (o : ℕ) (hn : img.nr + o ≤ 2048)
    (himg : ∀ r < img.nr, ∀ q < img.nc, ∃ v : ℚ, Val (img.px r q) v ∧ 1 ≤ v ∧ v ≤ 160000) :
    ∃ out out', Fp.clockDirection (B64.arith sum) B64.conv img ⟨[B64.one], fill84700⟩ (.standard [dwell] true true true i) groups 0 o
        (List.range img.nr) (List.range img.nc) none = .ok (out, .standard [dwell] true true true i) ∧
      Arctic.clockCharge (realImage img) ⟨[1], fun _ => Arctic.wellFill 84700 1⟩ (.standard [dw] true true true i)
        (traps.map Ref.Traps.group) 0 o (List.range img.nr) (List.range img.nc) none =
          .ok (out', .standard [dw] true true true i) ∧
      ∀ q < img.nc, ∑ r ∈ Finset.range img.nr, |Fp.rl (out.px r q) - out'.px r q| ≤ 1 / 4 := by
  obtain ⟨t0, t1⟩ := sizes_totals hg hG
  obtain ⟨out, out', a1, a2, -, -, -, a3⟩ := C93_direction (sum := sum) (F := fun _ => Arctic.wellFill 84700 1) (fill := fill84700)
    (sizes_precise hdwell hdw hG hg hok) img hnr i o
    (by change img.nr ≤ 2048; omega) (hn.trans (by norm_num)) none (Or.inl rfl) (sizes_room hG t0 t1 hn)
    (fun r hr q hq => by
      obtain ⟨v, hv, v1, v2⟩ := himg r hr q hq
      exact ⟨v, hv, by exact_mod_cast v1, by exact_mod_cast v2⟩)
  exact ⟨out, out', a1, a2, fun q hq => (a3 q hq).trans (sizes_readout hG t0 t1 hn)⟩

/-- **C93** for the order in which numpy adds: every number is added once, and the sum of numbers with absolute values up to a
total of eight is off by at most 2⁻⁴⁸ for every number. -/
theorem C93_numpy (l : List B64) :
    B64.Added l (B64.sumPairwise l) ∧
      ((∀ v ∈ l, ∃ q : ℚ, B64.Val v q) → (l.map fun v => |v.val|).sum ≤ 8 → l.length ≤ 2 ^ 48 →
        ∃ c : ℚ, B64.Val (B64.sumPairwise l) c ∧ |c - (l.map B64.val).sum| ≤ l.length / 2 ^ 48) := by
  refine ⟨B64.AnyOrder.added l, fun hv hs hn => ?_⟩
  obtain ⟨c, hc, h⟩ := Fp.sum_near (sum := B64.sumPairwise) hv hs (Fp.nonzero_le l) (by
    have : (l.length : ℚ) ≤ 2 ^ 48 := by exact_mod_cast hn
    unfold Fp.err
    norm_num
    linarith)
  exact ⟨c, hc, h.trans (by unfold Fp.err; rw [div_eq_mul_inv]; norm_num)⟩

namespace Fp

open B64

/-! ### an example -/

/-- Ten traps of one species, which keep half of their electrons during a dwell time. -/
def tenTraps : Group B64 := ⟨1, fun _ => B64.pack 10, .instant fun _ _ => B64.pack (1 / 2)⟩

theorem val_ten : Val (B64.pack 10) 10 := by unfold Val; decide +kernel

theorem val_half : Val (B64.pack (1 / 2)) (1 / 2) := by unfold Val; decide +kernel

theorem tenTraps_near : GroupNear sizes B64.one 1 tenTraps refTraps where
  species := ⟨Nat.one_pos, by change 1 ≤ 3; norm_num⟩
  dens := ⟨by change (1 : ℚ) ≤ 16; norm_num, (by norm_num : (16 : ℚ) ≤ 2 ^ 18).trans sizes_ok.le_big,
    fun _ => ⟨10, val_ten, by norm_num⟩, by
      change ∑ j : Fin 1, (B64.pack 10).val ≤ (16 : ℚ)
      rw [val_ten.val]
      norm_num⟩
  kind := by
    refine ⟨fun _ _ => B64.pack (1 / 2), fun _ _ => 1 / 2, rfl, ?_, fun j => ⟨1 / 2, val_half, by norm_num, by norm_num⟩,
      fun j => ?_, fun j => ?_, fun j => by norm_num⟩
    · unfold refTraps tenTraps
      have : rl (B64.pack 10) = 10 := by rw [rl_val val_ten]; norm_num
      simp only [this]
    · rw [val_half.val]; norm_num
    · rw [rl_val val_half]
      push_cast
      rw [sub_self, abs_zero]
      exact Scale.u_pos.le

/-- `C93_size` applies to a column of 1000 pixels, with sums in the order of numpy. -/
example (i : Bool) : ∃ out out', Fp.clockDirection (B64.arith B64.sumPairwise) B64.conv ⟨1000, 1, fun r _ => B64.pack 300⟩ ⟨[B64.one], fill84700⟩
      (.standard [B64.one] true true true i) [tenTraps] 0 3 (List.range 1000) (List.range 1) none =
        .ok (out, .standard [B64.one] true true true i) ∧
    Arctic.clockCharge (realImage ⟨1000, 1, fun r _ => B64.pack 300⟩) ⟨[1], fun _ => Arctic.wellFill 84700 1⟩
      (.standard [1] true true true i) ([refTraps].map Ref.Traps.group) 0 3 (List.range 1000) (List.range 1) none =
        .ok (out', .standard [1] true true true i) ∧
    ∀ q < 1, ∑ r ∈ Finset.range 1000, |rl (out.px r q) - out'.px r q| ≤ 1 / 4 :=
  C93_size ⟨1, val_one, one_pos⟩ one_pos (by simp) (List.Forall₂.cons tenTraps_near .nil) refExact.traps
    ⟨1000, 1, fun r _ => B64.pack 300⟩ (by norm_num) i 3 (by norm_num)
    (fun r _ q _ => ⟨300, show Val (B64.pack 300) 300 by unfold Val; decide +kernel, by norm_num, by norm_num⟩)

end Fp
end Arctic
