import Verif.Lemmas.FloatCapture
import Verif.Lemmas.RoundLevy

/-!
# Watermarks in double precision and the profiles they stand for
-/

set_option linter.unusedSectionVars false
set_option linter.unusedVariables false

namespace Arctic.B64

theorem toInt_mono {x y : ℚ} (h : x ≤ y) : toInt x ≤ toInt y := by
  have hf : ⌊x⌋ ≤ ⌊y⌋ := Int.floor_le_floor h
  unfold toInt
  simp only
  rcases hf.lt_or_eq with hlt | he
  · have h1 : ∀ a b c : Prop, ∀ [Decidable a] [Decidable b] [Decidable c],
        (if a then ⌊x⌋ else if b then ⌊x⌋ + 1 else if c then ⌊x⌋ else ⌊x⌋ + 1) ≤ ⌊x⌋ + 1 := by
      intro a b c _ _ _
      split
      · omega
      · split
        · omega
        · split <;> omega
    refine (h1 _ _ _).trans ?_
    split
    · omega
    · split
      · omega
      · split <;> omega
  · rw [he]
    split
    · split
      · exact le_rfl
      · split
        · omega
        · split <;> omega
    · rename_i h1
      have hy1 : ¬ y - (⌊y⌋ : ℚ) < 1 / 2 := by intro hc; exact h1 (by linarith)
      rw [if_neg hy1]
      split
      · rename_i h2
        rw [if_pos (by linarith)]
      · split
        · split
          · omega
          · exact le_rfl
        · split <;> exact le_rfl

/-- Rounding keeps the order (here for numbers between zero and one). -/
theorem round_mono {x y : ℚ} (h0 : 0 ≤ x) (h : x ≤ y) (h1 : y ≤ 1) : round x ≤ round y := by
  rcases h0.eq_or_lt with rfl | h0
  · rw [round_zero]
    exact round_mono_rep' rep_zero h
  have hy0 : 0 < y := by linarith
  have hu := ulpExp_mono h0 h
  rcases hu.eq_or_lt with he | hlt
  · rw [round_pos h0, round_pos hy0]
    unfold roundPos
    rw [he]
    have hp := two_zpow_pos (ulpExp y)
    refine mul_le_mul_of_nonneg_right ?_ hp.le
    exact_mod_cast toInt_mono (div_le_div_of_nonneg_right h hp.le)
  · obtain ⟨a1, a2⟩ := log2_spec h0
    obtain ⟨b1, b2⟩ := log2_spec hy0
    have hl : log2 x < log2 y ∧ -1022 < log2 y := by
      unfold ulpExp at hlt
      omega
    have hz : x < 2 ^ log2 y := a2.trans_le (zpow_le_zpow_right₀ (by norm_num) (by omega))
    have hrep : Rep ((2 : ℚ) ^ log2 y) := by
      refine ⟨?_, ?_⟩
      · have := round_grid (n := 2 ^ 52) (e := log2 y - 52) (by norm_num) (by norm_num) (by omega)
        have e : (((2 : ℤ) ^ 52 : ℤ) : ℚ) * 2 ^ (log2 y - 52) = 2 ^ log2 y := by
          rw [show (((2 : ℤ) ^ 52 : ℤ) : ℚ) = 2 ^ (52 : ℤ) by norm_num, ← zpow_add₀ (by norm_num)]
          congr 1; ring
        rwa [e] at this
      · rw [abs_of_pos (two_zpow_pos _)]
        refine (b1.trans h1).trans_lt ?_
        unfold limit
        exact one_lt_pow₀ (by norm_num) (by norm_num)
    exact (round_mono_rep hrep hz.le).trans (round_mono_rep' hrep b1)

end Arctic.B64

namespace Arctic.Fp

open B64 MeasureTheory

variable {s : ℕ}

/-- Rounding at a scale `N`. -/
theorem round_scale {N q : ℚ} (h1 : 1 ≤ N) (h2 : N ≤ big) (h : |q| ≤ 16 * N) :
    |B64.round q - q| ≤ N * err ∧ |B64.round q| < limit := by
  have he := round_error q
  have e1 : (2 : ℚ) ^ (-53 : ℤ) = 1 / 9007199254740992 := by norm_num
  have e2 : (2 : ℚ) ^ (-1075 : ℤ) ≤ 2 ^ (-53 : ℤ) := zpow_le_zpow_right₀ (by norm_num) (by norm_num)
  have e3 : err = 1 / 281474976710656 := by unfold err; norm_num
  refine ⟨?_, round_bound (h.trans ?_)⟩
  · rw [e1] at he e2
    rw [e3]
    linarith
  · unfold big at h2
    have : (2 : ℚ) ^ 1000 = 2 ^ 900 * 2 ^ 100 := by rw [← pow_add]
    have hp : (0 : ℚ) < 2 ^ 900 := by positivity
    rw [this]
    generalize (2 : ℚ) ^ 900 = y at h2 hp ⊢
    norm_num
    linarith

/-- A finite double between zero and one. -/
def Unit01 (x : B64) : Prop := ∃ q, Val x q ∧ 0 ≤ q ∧ q ≤ 1

/-- An array as the code keeps it: a block of `m` rows of positive volume, then rows of zeros; fill fractions that
decrease upwards. -/
structure Tidy (m : ℕ) (wm : WM B64 s) : Prop where
  le : m ≤ wm.length
  pos : ∀ r ∈ wm.take m, ∃ q, Val r.vol q ∧ 0 < q
  zero : ∀ r ∈ wm.drop m, Val r.vol 0 ∧ ∀ j, Val (r.fill j) 0
  frac : ∀ r ∈ wm, ∀ j, Unit01 (r.fill j)
  sink : wm.Pairwise fun r r' => ∀ j, (r'.fill j).val ≤ (r.fill j).val

theorem Tidy.formed {m : ℕ} {wm : WM B64 s} (h : Tidy m wm) : Formed m wm where
  le := h.le
  pos r hr := by obtain ⟨q, hq, q0⟩ := h.pos r hr; exact pos_of_val hq q0
  zero r hr := (h.zero r hr).1
  fills r hr j := by
    refine Or.inr ((h.zero r ?_).2 j)
    obtain ⟨i, hi⟩ := List.mem_iff_getElem?.1 hr
    rw [List.getElem?_drop] at hi
    exact mem_drop_of hi (by omega)

theorem Tidy.vols {m : ℕ} {wm : WM B64 s} (h : Tidy m wm) : ∀ r ∈ wm, ∃ q, Val r.vol q ∧ 0 ≤ q := by
  intro r hr
  rw [← List.take_append_drop m wm] at hr
  rcases List.mem_append.1 hr with hr | hr
  · obtain ⟨q, hq, q0⟩ := h.pos r hr; exact ⟨q, hq, q0.le⟩
  · exact ⟨0, (h.zero r hr).1, le_rfl⟩

theorem Tidy.sized {m : ℕ} {wm : WM B64 s} (h : Tidy m wm) {B : ℚ} (hB : vsum (wm.map Row.vol) ≤ B) :
    VolSized B (wm.map Row.vol) := by
  refine ⟨fun v hv => ?_, hB⟩
  obtain ⟨r, hr, rfl⟩ := List.mem_map.1 hv
  obtain ⟨q, hq, -⟩ := h.vols r hr
  exact ⟨q, hq⟩

theorem Tidy.drop {m : ℕ} {wm : WM B64 s} (h : Tidy m wm) (k : ℕ) : Tidy (m - k) (wm.drop k) where
  le := by rw [List.length_drop]; have := h.le; omega
  pos r hr := by
    obtain ⟨i, hi⟩ := List.mem_iff_getElem?.1 hr
    rw [List.getElem?_take] at hi
    split at hi
    · rw [List.getElem?_drop] at hi
      exact h.pos r (mem_take_of hi (by omega))
    · cases hi
  zero r hr := by
    obtain ⟨i, hi⟩ := List.mem_iff_getElem?.1 hr
    rw [List.getElem?_drop, List.getElem?_drop] at hi
    exact h.zero r (mem_drop_of hi (by omega))
  frac r hr := h.frac r (List.mem_of_mem_drop hr)
  sink := h.sink.sublist (List.drop_sublist k wm)

theorem Tidy.dropLast {m : ℕ} {wm : WM B64 s} (h : Tidy m wm) (hm : m < wm.length) : Tidy m wm.dropLast where
  le := by rw [List.length_dropLast]; omega
  pos r hr := by
    obtain ⟨i, hi⟩ := List.mem_iff_getElem?.1 hr
    rw [List.getElem?_take] at hi
    split at hi
    · rw [List.getElem?_dropLast] at hi
      split at hi
      · exact h.pos r (mem_take_of hi (by omega))
      · cases hi
    · cases hi
  zero r hr := by
    obtain ⟨i, hi⟩ := List.mem_iff_getElem?.1 hr
    rw [List.getElem?_drop, List.getElem?_dropLast] at hi
    split at hi
    · exact h.zero r (mem_drop_of hi (by omega))
    · cases hi
  frac r hr := h.frac r (List.mem_of_mem_dropLast hr)
  sink := h.sink.sublist (List.dropLast_sublist wm)

theorem Tidy.zeros {m : ℕ} {wm : WM B64 s} (h : Tidy m wm) (n : ℕ) : Tidy m (wm ++ List.replicate n (zeroRow D s)) where
  le := by rw [List.length_append]; have := h.le; omega
  pos r hr := by
    rw [List.take_append_of_le_length h.le] at hr
    exact h.pos r hr
  zero r hr := by
    rw [List.drop_append_of_le_length h.le] at hr
    rcases List.mem_append.1 hr with hr | hr
    · exact h.zero r hr
    · rw [List.eq_of_mem_replicate hr]; exact ⟨val_zero, fun _ => val_zero⟩
  frac r hr j := by
    rcases List.mem_append.1 hr with hr | hr
    · exact h.frac r hr j
    · rw [List.eq_of_mem_replicate hr]; exact ⟨0, val_zero, le_rfl, zero_le_one⟩
  sink := by
    refine List.pairwise_append.2 ⟨h.sink, List.pairwise_replicate.2 (Or.inr fun j => le_rfl), ?_⟩
    intro r hr r' hr' j
    rw [List.eq_of_mem_replicate hr']
    obtain ⟨q, hq, q0, -⟩ := h.frac r hr j
    rw [hq.val]
    exact q0

theorem Tidy.cons {m : ℕ} {wm : WM B64 s} (h : Tidy m wm) (row : Row B64 s) (hv : ∃ q, Val row.vol q ∧ 0 < q)
    (hf : ∀ j, Unit01 (row.fill j)) (hs : ∀ r ∈ wm, ∀ j, (r.fill j).val ≤ (row.fill j).val) : Tidy (m + 1) (row :: wm) where
  le := by rw [List.length_cons]; have := h.le; omega
  pos r hr := by
    rw [List.take_succ_cons] at hr
    rcases List.mem_cons.1 hr with rfl | hr
    · exact hv
    · exact h.pos r hr
  zero r hr := by
    rw [List.drop_succ_cons] at hr
    exact h.zero r hr
  frac r hr := by
    rcases List.mem_cons.1 hr with rfl | hr
    · exact hf
    · exact h.frac r hr
  sink := List.pairwise_cons.2 ⟨hs, h.sink⟩

theorem unit01_one : Unit01 B64.one := ⟨1, val_one, zero_le_one, le_rfl⟩

/-- A full row below. -/
theorem Tidy.full {m : ℕ} {wm : WM B64 s} (h : Tidy m wm) (v : B64) (hv : ∃ q, Val v q ∧ 0 < q) :
    Tidy (m + 1) ((⟨v, fun _ => B64.one⟩ : Row B64 s) :: wm) :=
  h.cons _ hv (fun _ => unit01_one) fun r hr j => by
    obtain ⟨q, hq, -, q1⟩ := h.frac r hr j
    rw [hq.val]
    exact q1

/-! ### the profile -/

/-- The value of a double as a real number. -/
noncomputable def rl (x : B64) : ℝ := (x.val : ℝ)

/-- The row as real numbers. -/
noncomputable def realRow (r : Row B64 s) : Row ℝ s := ⟨rl r.vol, fun j => rl (r.fill j)⟩

/-- The array as real numbers. -/
noncomputable def toReal (wm : WM B64 s) : WM ℝ s := wm.map realRow

theorem toReal_append (l l' : WM B64 s) : toReal (l ++ l') = toReal l ++ toReal l' := List.map_append

theorem toReal_cons (r : Row B64 s) (l : WM B64 s) : toReal (r :: l) = realRow r :: toReal l := rfl

theorem rl_val {x : B64} {q : ℚ} (h : Val x q) : rl x = q := by unfold rl; rw [h.val]

theorem volSum_toReal (wm : WM B64 s) : volSum (toReal wm) = ((vsum (wm.map Row.vol) : ℚ) : ℝ) := by
  induction wm with
  | nil => simp [toReal, volSum, vsum]
  | cons r wm ih =>
    rw [List.map_cons, vsum_cons, toReal_cons]
    push_cast
    rw [← ih]
    simp [volSum, realRow, rl]

theorem Tidy.realFrac {m : ℕ} {wm : WM B64 s} (h : Tidy m wm) : ∀ r ∈ toReal wm, Frac r.fill := by
  intro r hr j
  obtain ⟨q, hq, rfl⟩ := List.mem_map.1 hr
  obtain ⟨x, hx, x0, x1⟩ := h.frac q hq j
  change 0 ≤ rl (q.fill j) ∧ rl (q.fill j) ≤ 1
  rw [rl_val hx]
  exact ⟨by exact_mod_cast x0, by exact_mod_cast x1⟩

theorem Tidy.realVol {m : ℕ} {wm : WM B64 s} (h : Tidy m wm) : ∀ r ∈ toReal wm, 0 ≤ r.vol := by
  intro r hr
  obtain ⟨q, hq, rfl⟩ := List.mem_map.1 hr
  obtain ⟨x, hx, x0⟩ := h.vols q hq
  change 0 ≤ rl q.vol
  rw [rl_val hx]
  exact_mod_cast x0

theorem Tidy.sinking {m : ℕ} {wm : WM B64 s} (h : Tidy m wm) : Sinking (toReal wm) := by
  unfold Sinking toReal
  rw [List.pairwise_map]
  refine h.sink.imp fun {r r'} hr j => ?_
  change rl (r'.fill j) ≤ rl (r.fill j)
  unfold rl
  exact_mod_cast hr j

theorem occ_fill_zero (l : WM ℝ s) (j : Fin s) (h : ∀ r ∈ l, r.fill j = 0) (d : ℝ) : occ l d j = 0 := by
  induction l generalizing d with
  | nil => rfl
  | cons r l ih =>
    rw [occ_cons]
    split
    · exact h r List.mem_cons_self
    · exact ih (fun x hx => h x (List.mem_cons_of_mem _ hx)) _

theorem occ_append_unfilled (l z : WM ℝ s) (j : Fin s) (h : ∀ r ∈ z, r.fill j = 0) (d : ℝ) : occ (l ++ z) d j = occ l d j := by
  induction l generalizing d with
  | nil => exact occ_fill_zero z j h d
  | cons r l ih =>
    rw [List.cons_append, occ_cons, occ_cons, ih]

/-- A copy with scaled fill fractions. -/
theorem occ_near {A B : WM ℝ s} {k : Fin s → ℝ} {η : ℝ} (hη : 0 ≤ η)
    (h : List.Forall₂ (fun r r' : Row ℝ s => r'.vol = r.vol ∧ ∀ j, |r'.fill j - r.fill j * k j| ≤ η) A B) (d : ℝ) (j : Fin s) :
    |occ B d j - occ A d j * k j| ≤ η := by
  induction h generalizing d with
  | nil => simp [occ, hη]
  | cons hr _ ih =>
    rw [occ_cons, occ_cons, hr.1]
    split
    · exact hr.2 j
    · exact ih _

/-! ### release -/

theorem tidy_release {m : ℕ} {wm : WM B64 s} (h : Tidy m wm) {p : Fin s → B64} (hp : ∀ j, Unit01 (p j)) :
    Tidy m (mapFills 0 m (fun j x => B64.mul x (p j)) wm) ∧
      ∀ (keep : Fin s → ℝ) (κ : ℝ), (∀ j, |rl (p j) - keep j| ≤ κ) → ∀ d j,
        |occ (toReal (mapFills 0 m (fun j x => B64.mul x (p j)) wm)) d j - occ (toReal wm) d j * keep j| ≤ κ + (err : ℝ) := by
  have hl := mapFills_length 0 m (fun j x => B64.mul x (p j)) wm
  -- every fill fraction is the rounded product
  have val : ∀ (i : ℕ) (r r' : Row B64 s), wm[i]? = some r → (mapFills 0 m (fun j x => B64.mul x (p j)) wm)[i]? = some r' →
      r'.vol = r.vol ∧ ∀ j, Val (r'.fill j) (B64.round ((r.fill j).val * (p j).val)) := by
    intro i r r' hr hr'
    obtain ⟨q, hq, e1, e2, e3⟩ := mapFills_get _ _ _ _ hr'
    rw [hr] at hq
    injection hq with hq
    subst hq
    refine ⟨e1.symm, fun j => ?_⟩
    obtain ⟨x, hx, x0, x1⟩ := h.frac r (List.mem_iff_getElem?.2 ⟨i, hr⟩) j
    obtain ⟨y, hy, y0, y1⟩ := hp j
    rw [hx.val, hy.val]
    by_cases him : i < m
    · rw [e3 him]
      refine val_mul hx hy (round_err16 ?_).2
      rw [abs_of_nonneg (mul_nonneg x0 y0)]
      have := mul_le_one₀ x1 y0 y1
      linarith
    · rw [← e2 (by omega)]
      have := (h.zero r (mem_drop_of hr (by omega))).2 j
      have hx0 := hx.unique this
      rw [hx0, zero_mul, round_zero]
      exact this
  have unit : ∀ (x y : ℚ), 0 ≤ x → x ≤ 1 → 0 ≤ y → y ≤ 1 → 0 ≤ B64.round (x * y) ∧ B64.round (x * y) ≤ 1 := by
    intro x y x0 x1 y0 y1
    exact ⟨round_mono_rep' rep_zero (mul_nonneg x0 y0), round_mono_rep val_one.rep (mul_le_one₀ x1 y0 y1)⟩
  have mem : ∀ r' ∈ mapFills 0 m (fun j x => B64.mul x (p j)) wm, ∃ r ∈ wm, ∀ j, Val (r'.fill j) (B64.round ((r.fill j).val * (p j).val)) := by
    intro r' hr'
    obtain ⟨i, hi⟩ := List.mem_iff_getElem?.1 hr'
    have hlt : i < wm.length := by
      rw [← hl]; exact (List.getElem?_eq_some_iff.1 hi).1
    have hr := List.getElem?_eq_getElem hlt
    exact ⟨_, List.getElem_mem hlt, (val i _ _ hr hi).2⟩
  refine ⟨⟨by rw [hl]; exact h.le, ?_, ?_, ?_, ?_⟩, ?_⟩
  · intro r' hr'
    obtain ⟨i, hi⟩ := List.mem_iff_getElem?.1 hr'
    rw [List.getElem?_take] at hi
    split at hi
    · obtain ⟨q, hq, e1, -, -⟩ := mapFills_get _ _ _ _ hi
      rw [← e1]
      exact h.pos q (mem_take_of hq (by assumption))
    · cases hi
  · intro r' hr'
    obtain ⟨i, hi⟩ := List.mem_iff_getElem?.1 hr'
    rw [List.getElem?_drop] at hi
    obtain ⟨q, hq, e1, e2, -⟩ := mapFills_get _ _ _ _ hi
    rw [← e2 (by omega)]
    exact h.zero q (mem_drop_of hq (by omega))
  · intro r' hr' j
    obtain ⟨r, hr, hv⟩ := mem r' hr'
    obtain ⟨x, hx, x0, x1⟩ := h.frac r hr j
    obtain ⟨y, hy, y0, y1⟩ := hp j
    have := hv j
    rw [hx.val, hy.val] at this
    obtain ⟨u0, u1⟩ := unit x y x0 x1 y0 y1
    exact ⟨_, this, u0, u1⟩
  · rw [List.pairwise_iff_getElem]
    intro i i' hi hi' hlt j
    rw [hl] at hi hi'
    have a := val i _ _ (List.getElem?_eq_getElem hi) (List.getElem?_eq_getElem (by rw [hl]; exact hi))
    have b := val i' _ _ (List.getElem?_eq_getElem hi') (List.getElem?_eq_getElem (by rw [hl]; exact hi'))
    rw [(a.2 j).val, (b.2 j).val]
    have hs := List.pairwise_iff_getElem.1 h.sink i i' hi hi' hlt j
    obtain ⟨x, hx, x0, x1⟩ := h.frac _ (List.getElem_mem hi) j
    obtain ⟨x', hx', x0', x1'⟩ := h.frac _ (List.getElem_mem hi') j
    obtain ⟨y, hy, y0, y1⟩ := hp j
    rw [hx.val, hx'.val] at hs
    rw [hx.val, hx'.val, hy.val]
    exact round_mono (mul_nonneg x0' y0) (mul_le_mul_of_nonneg_right hs y0) (mul_le_one₀ x1 y0 y1)
  · intro keep κ hk d j
    have hκ : 0 ≤ κ := (abs_nonneg _).trans (hk j)
    refine occ_near (k := keep) (add_nonneg hκ (by exact_mod_cast err_pos.le)) ?_ d j
    rw [List.forall₂_iff_get]
    unfold toReal
    refine ⟨by simp only [List.length_map]; exact hl.symm, fun i h1 h2 => ?_⟩
    rw [List.length_map] at h1 h2
    obtain ⟨e1, e2⟩ := val i _ _ (List.getElem?_eq_getElem h1) (List.getElem?_eq_getElem h2)
    simp only [List.get_eq_getElem, List.getElem_map, realRow]
    refine ⟨by rw [e1], fun j => ?_⟩
    obtain ⟨x, hx, x0, x1⟩ := h.frac _ (List.getElem_mem h1) j
    obtain ⟨y, hy, y0, y1⟩ := hp j
    have h3 := e2 j
    rw [hx.val, hy.val] at h3
    have hr := (round_err16 (q := x * y) (by
      rw [abs_of_nonneg (mul_nonneg x0 y0)]
      have := mul_le_one₀ x1 y0 y1
      linarith)).1
    rw [rl_val h3, rl_val hx]
    have hkj := hk j
    rw [rl_val hy] at hkj
    have hr' : |((B64.round (x * y) : ℚ) : ℝ) - (x : ℝ) * (y : ℝ)| ≤ (err : ℝ) := by exact_mod_cast hr
    have x0' : (0 : ℝ) ≤ x := by exact_mod_cast x0
    have x1' : (x : ℝ) ≤ 1 := by exact_mod_cast x1
    have h5 : |(x : ℝ) * y - x * keep j| ≤ κ := by
      rw [← mul_sub, abs_mul, abs_of_nonneg x0']
      exact (mul_le_of_le_one_left (abs_nonneg _) x1').trans hkj
    have := abs_add_le (((B64.round (x * y) : ℚ) : ℝ) - (x : ℝ) * (y : ℝ)) ((x : ℝ) * y - x * keep j)
    rw [show ((B64.round (x * y) : ℚ) : ℝ) - (x : ℝ) * (y : ℝ) + ((x : ℝ) * y - x * keep j) =
      ((B64.round (x * y) : ℚ) : ℝ) - x * keep j by ring] at this
    linarith

/-! ### numbers of trapped electrons -/

/-- Exact number of electrons of an array of doubles. -/
def elec (dens : Fin s → B64) (wm : WM B64 s) : ℚ :=
  (wm.map fun r => ((List.finRange s).map fun j => r.vol.val * (r.fill j).val * (dens j).val).sum).sum

theorem electrons_toReal (dens : Fin s → B64) (wm : WM B64 s) :
    electrons (fun j => rl (dens j)) (toReal wm) = ((elec dens wm : ℚ) : ℝ) := by
  induction wm with
  | nil => simp [electrons, elec, toReal]
  | cons r wm ih =>
    have e1 : electrons (fun j => rl (dens j)) (toReal (r :: wm)) =
        rl r.vol * ∑ j, rl (r.fill j) * rl (dens j) + electrons (fun j => rl (dens j)) (toReal wm) := by
      simp [electrons, toReal, realRow]
    have e2 : elec dens (r :: wm) = ((List.finRange s).map fun j => r.vol.val * (r.fill j).val * (dens j).val).sum + elec dens wm := by
      simp [elec]
    rw [e1, e2, ih, ← Fin.sum_univ_def]
    push_cast
    congr 1
    rw [Finset.mul_sum]
    exact Finset.sum_congr rfl fun j _ => by unfold rl; ring

/-- A running sum of products. -/
theorem prod_fold {N : ℚ} (h1 : 1 ≤ N) (h2 : N ≤ big) (l : List (B64 × B64 × B64))
    (hl : ∀ z ∈ l, (∃ q, Val z.1 q ∧ 0 ≤ q ∧ q ≤ 2) ∧ Unit01 z.2.1 ∧ ∃ q, Val z.2.2 q ∧ 0 ≤ q ∧ q ≤ N) :
    ∀ (t : B64) (a e : ℚ) (n : ℕ), Val t a → |a - e| ≤ n * (3 * N * err) → 0 ≤ e →
      e + (l.map fun z => z.1.val * z.2.1.val * z.2.2.val).sum ≤ 3 * N → ((n + l.length : ℕ) : ℚ) * (3 * err) ≤ 1 →
      ∃ c, Val (l.foldl (fun t z => B64.add t (B64.mul (B64.mul z.1 z.2.1) z.2.2)) t) c ∧
        |c - (e + (l.map fun z => z.1.val * z.2.1.val * z.2.2.val).sum)| ≤ ((n + l.length : ℕ) : ℚ) * (3 * N * err) ∧
        (0 ≤ a → 0 ≤ c) := by
  have he := err_pos
  have he1 : err ≤ 1 / 8 := by unfold err; norm_num
  induction l with
  | nil =>
    intro t a e n ht ha e0 hs hn
    refine ⟨a, ht, ?_, id⟩
    simpa using ha
  | cons z l ih =>
    intro t a e n ht ha e0 hs hn
    obtain ⟨⟨v, hv, v0, v1⟩, ⟨f, hf, f0, f1⟩, p, hp, p0, p1⟩ := hl z List.mem_cons_self
    have hvf0 := mul_nonneg v0 f0
    have hvf : v * f ≤ 2 := (mul_le_of_le_one_right v0 f1).trans v1
    obtain ⟨r1, r2⟩ := round_err16 (q := v * f) (by rw [abs_of_nonneg hvf0]; linarith)
    have hm1 := val_mul hv hf r2
    have rn := round_mono_rep' rep_zero hvf0
    have rle : B64.round (v * f) ≤ 3 := by rw [abs_le] at r1; linarith
    have hq0 := mul_nonneg rn p0
    have hq1 : B64.round (v * f) * p ≤ 3 * N := mul_le_mul rle p1 p0 (by norm_num)
    obtain ⟨r3, r4⟩ := round_scale (q := B64.round (v * f) * p) h1 h2 (by rw [abs_of_nonneg hq0]; linarith)
    have hm2 := val_mul hm1 hp r4
    have hprod : |B64.round (B64.round (v * f) * p) - v * f * p| ≤ 2 * N * err := by
      have e1 : B64.round (B64.round (v * f) * p) - v * f * p =
          (B64.round (B64.round (v * f) * p) - B64.round (v * f) * p) + (B64.round (v * f) - v * f) * p := by ring
      rw [e1]
      refine (abs_add_le _ _).trans ?_
      have : |(B64.round (v * f) - v * f) * p| ≤ err * N := by
        rw [abs_mul, abs_of_nonneg p0]
        exact mul_le_mul r1 p1 p0 he.le
      linarith
    rw [List.map_cons, List.sum_cons, hv.val, hf.val, hp.val] at hs ⊢
    have hsum : ∀ l : List (B64 × B64 × B64), (∀ z ∈ l, (∃ q, Val z.1 q ∧ 0 ≤ q ∧ q ≤ 2) ∧ Unit01 z.2.1 ∧ ∃ q, Val z.2.2 q ∧ 0 ≤ q ∧ q ≤ N) →
        0 ≤ (l.map fun z => z.1.val * z.2.1.val * z.2.2.val).sum := by
      intro l hl
      refine List.sum_nonneg fun x hx => ?_
      obtain ⟨z, hz, rfl⟩ := List.mem_map.1 hx
      obtain ⟨⟨v, hv, v0, v1⟩, ⟨f, hf, f0, f1⟩, p, hp, p0, p1⟩ := hl z hz
      rw [hv.val, hf.val, hp.val]
      positivity
    have hrest := hsum l fun z hz => hl z (List.mem_cons_of_mem _ hz)
    have ht0 : 0 ≤ v * f * p := mul_nonneg hvf0 p0
    rw [List.length_cons] at hn
    have hn1 : ((n : ℚ) + 1) * (3 * err) ≤ 1 := by
      refine le_trans ?_ hn
      push_cast
      have : (0 : ℚ) ≤ l.length := Nat.cast_nonneg _
      nlinarith
    have hnN : (n : ℚ) * (3 * N * err) ≤ N := by
      have : (n : ℚ) * (3 * err) ≤ 1 := by linarith
      calc (n : ℚ) * (3 * N * err) = (n : ℚ) * (3 * err) * N := by ring
        _ ≤ 1 * N := mul_le_mul_of_nonneg_right this (by linarith)
        _ = N := one_mul N
    have hNe : N * err ≤ N := by nlinarith
    have h16 : |a + B64.round (B64.round (v * f) * p)| ≤ 16 * N := by
      rw [abs_le] at ha hprod ⊢
      constructor <;> linarith
    obtain ⟨r5, r6⟩ := round_scale h1 h2 h16
    have hadd := val_add ht hm2 r6
    obtain ⟨c, hc, hce, hc0⟩ := ih (fun z hz => hl z (List.mem_cons_of_mem _ hz)) _ _ (e + v * f * p) (n + 1) hadd (by
        rw [abs_le] at ha hprod r5 ⊢
        push_cast
        constructor <;> linarith) (by linarith) (by linarith)
      (by rw [show n + 1 + l.length = n + (l.length + 1) by omega]; exact hn)
    refine ⟨c, hc, ?_, fun a0 => hc0 (round_mono_rep' rep_zero (add_nonneg a0 (round_mono_rep' rep_zero hq0)))⟩
    rw [List.length_cons, show n + (l.length + 1) = n + 1 + l.length by omega, ← add_assoc]
    exact hce

theorem fold_zero_terms (l : List (B64 × B64 × B64)) (hl : ∀ z ∈ l, Val z.1 0 ∧ Unit01 z.2.1 ∧ ∃ q, Val z.2.2 q) :
    ∀ {t : B64} {a : ℚ}, Val t a → Val (l.foldl (fun t z => B64.add t (B64.mul (B64.mul z.1 z.2.1) z.2.2)) t) a := by
  induction l with
  | nil => intro t a ht; exact ht
  | cons z l ih =>
    intro t a ht
    obtain ⟨hv, ⟨f, hf, -, -⟩, p, hp⟩ := hl z List.mem_cons_self
    have h0 : |B64.round 0| < limit := by rw [round_zero]; unfold limit; simp
    have m1 := val_mul hv hf (by rw [zero_mul]; exact h0)
    rw [zero_mul, round_zero] at m1
    have m2 := val_mul m1 hp (by rw [zero_mul]; exact h0)
    rw [zero_mul, round_zero] at m2
    have m3 := val_add ht m2 (by rw [add_zero, ht.rep.1]; exact ht.rep.2)
    rw [add_zero, ht.rep.1] at m3
    exact ih (fun z hz => hl z (List.mem_cons_of_mem _ hz)) m3

/-- The factors of all terms. -/
def factors (dens : Fin s → B64) (wm : WM B64 s) : List (B64 × B64 × B64) :=
  wm.flatMap fun r => (List.finRange s).map fun j => (r.vol, r.fill j, dens j)

theorem cyNTrapped_factors (dens : Fin s → B64) (wm : WM B64 s) :
    cyNTrapped D wm dens = (factors dens wm).foldl (fun t z => B64.add t (B64.mul (B64.mul z.1 z.2.1) z.2.2)) B64.zero := by
  unfold cyNTrapped factors
  rw [List.foldl_flatMap]
  simp only [List.foldl_map]
  rfl

theorem elec_factors (dens : Fin s → B64) (wm : WM B64 s) :
    elec dens wm = ((factors dens wm).map fun z => z.1.val * z.2.1.val * z.2.2.val).sum := by
  unfold elec factors
  induction wm with
  | nil => rfl
  | cons r wm ih =>
    rw [List.map_cons, List.sum_cons, ih, List.flatMap_cons, List.map_append, List.sum_append, List.map_map]
    rfl

/-- Densities as doubles: finite, not negative, and `N` in total. -/
structure DensOk (N : ℚ) (dens : Fin s → B64) : Prop where
  one_le : 1 ≤ N
  le_big : N ≤ big
  fin : ∀ j, ∃ q, Val (dens j) q ∧ 0 ≤ q
  total : ∑ j, (dens j).val ≤ N

theorem DensOk.le {N : ℚ} {dens : Fin s → B64} (h : DensOk N dens) (j : Fin s) : (dens j).val ≤ N := by
  refine le_trans ?_ h.total
  exact Finset.single_le_sum (f := fun j => (dens j).val) (fun i _ => by
    obtain ⟨q, hq, q0⟩ := h.fin i
    simp only [hq.val]; exact q0) (Finset.mem_univ j)

theorem elec_bounds {N : ℚ} {dens : Fin s → B64} (hd : DensOk N dens) (wm : WM B64 s)
    (hv : ∀ r ∈ wm, ∃ q, Val r.vol q ∧ 0 ≤ q) (hf : ∀ r ∈ wm, ∀ j, Unit01 (r.fill j)) :
    0 ≤ elec dens wm ∧ elec dens wm ≤ N * vsum (wm.map Row.vol) := by
  have hN := hd.one_le
  induction wm with
  | nil => simp [elec, vsum]
  | cons r wm ih =>
    obtain ⟨i1, i2⟩ := ih (fun x hx => hv x (List.mem_cons_of_mem _ hx)) fun x hx => hf x (List.mem_cons_of_mem _ hx)
    obtain ⟨v, hv', v0⟩ := hv r List.mem_cons_self
    have e2 : elec dens (r :: wm) = ((List.finRange s).map fun j => r.vol.val * (r.fill j).val * (dens j).val).sum + elec dens wm := by
      simp [elec]
    rw [e2, List.map_cons, vsum_cons, hv'.val, mul_add, ← Fin.sum_univ_def]
    have h0 : 0 ≤ ∑ j, v * (r.fill j).val * (dens j).val := Finset.sum_nonneg fun j _ => by
      obtain ⟨f, hf', f0, -⟩ := hf r List.mem_cons_self j
      obtain ⟨q, hq, q0⟩ := hd.fin j
      rw [hf'.val, hq.val]; positivity
    have h1 : ∑ j, v * (r.fill j).val * (dens j).val ≤ N * v := by
      calc ∑ j, v * (r.fill j).val * (dens j).val ≤ ∑ j, v * (dens j).val := Finset.sum_le_sum fun j _ => by
            obtain ⟨f, hf', f0, f1⟩ := hf r List.mem_cons_self j
            obtain ⟨q, hq, q0⟩ := hd.fin j
            rw [hf'.val, hq.val]
            exact mul_le_mul_of_nonneg_right (mul_le_of_le_one_right v0 f1) q0
        _ = v * ∑ j, (dens j).val := by rw [Finset.mul_sum]
        _ ≤ v * N := mul_le_mul_of_nonneg_left hd.total v0
        _ = N * v := mul_comm _ _
    constructor <;> linarith

/-- The number of trapped electrons in double precision. -/
theorem trapped_err {m : ℕ} {N : ℚ} {dens : Fin s → B64} (hd : DensOk N dens) {wm : WM B64 s} (h : Tidy m wm)
    (hB : vsum (wm.map Row.vol) ≤ 2) (hn : ((m * s : ℕ) : ℚ) * (3 * err) ≤ 1) :
    ∃ c, Val (cyNTrapped D wm dens) c ∧ |c - elec dens wm| ≤ ((m * s : ℕ) : ℚ) * (3 * N * err) ∧ 0 ≤ c := by
  have hN := hd.one_le
  rw [cyNTrapped_factors]
  have split : factors dens wm = factors dens (wm.take m) ++ factors dens (wm.drop m) := by
    unfold factors
    rw [← List.flatMap_append, List.take_append_drop]
  have hvb : ∀ r ∈ wm, ∀ q, Val r.vol q → q ≤ 2 := by
    intro r hr q hq
    have hp : ∀ v ∈ wm.map Row.vol, ∃ q, Val v q ∧ 0 ≤ q := by
      intro v hv
      obtain ⟨r, hr, rfl⟩ := List.mem_map.1 hv
      exact h.vols r hr
    have := vsum_sublist (l' := [r.vol]) (List.singleton_sublist.2 (List.mem_map.2 ⟨r, hr, rfl⟩)) hp
    rw [vsum_cons, vsum_nil, hq.val] at this
    linarith
  have hterm : ∀ r ∈ wm, ∀ z ∈ (List.finRange s).map (fun j => (r.vol, r.fill j, dens j)),
      (∃ q, Val z.1 q ∧ 0 ≤ q ∧ q ≤ 2) ∧ Unit01 z.2.1 ∧ ∃ q, Val z.2.2 q ∧ 0 ≤ q ∧ q ≤ N := by
    intro r hr z hz
    obtain ⟨j, -, rfl⟩ := List.mem_map.1 hz
    obtain ⟨v, hv, v0⟩ := h.vols r hr
    obtain ⟨q, hq, q0⟩ := hd.fin j
    have hqN := hd.le j
    rw [hq.val] at hqN
    exact ⟨⟨v, hv, v0, hvb r hr v hv⟩, h.frac r hr j, q, hq, q0, hqN⟩
  have hlen : (factors dens (wm.take m)).length = m * s := by
    unfold factors
    have : ∀ l : WM B64 s, (l.flatMap fun r => (List.finRange s).map fun j => (r.vol, r.fill j, dens j)).length = l.length * s := by
      intro l
      induction l with
      | nil => simp
      | cons r l ih =>
        rw [List.flatMap_cons, List.length_append, ih, List.length_map, List.length_finRange, List.length_cons, Nat.succ_mul]
        omega
    rw [this, List.length_take, min_eq_left h.le]
  have hz : ((factors dens (wm.drop m)).map fun z => z.1.val * z.2.1.val * z.2.2.val).sum = 0 := by
    refine List.sum_eq_zero fun x hx => ?_
    obtain ⟨z, hz, rfl⟩ := List.mem_map.1 hx
    obtain ⟨r, hr, hz⟩ := List.mem_flatMap.1 hz
    obtain ⟨j, -, rfl⟩ := List.mem_map.1 hz
    rw [(h.zero r hr).1.val]
    ring
  have hel : elec dens wm = ((factors dens (wm.take m)).map fun z => z.1.val * z.2.1.val * z.2.2.val).sum := by
    rw [elec_factors, split, List.map_append, List.sum_append, hz, add_zero]
  have hub := (elec_bounds hd wm h.vols h.frac).2
  obtain ⟨c, hc, hce, hc0⟩ := prod_fold hN hd.le_big (factors dens (wm.take m)) (fun z hz => by
      obtain ⟨r, hr, hz⟩ := List.mem_flatMap.1 hz
      exact hterm r (List.mem_of_mem_take hr) z hz) B64.zero 0 0 0 val_zero (by simp) le_rfl (by
      rw [zero_add, ← hel]
      nlinarith) (by rw [zero_add, hlen]; exact hn)
  rw [zero_add, zero_add, hlen, ← hel] at hce
  refine ⟨c, ?_, hce, hc0 le_rfl⟩
  rw [split, List.foldl_append]
  refine fold_zero_terms _ (fun z hz => ?_) hc
  obtain ⟨r, hr, hz⟩ := List.mem_flatMap.1 hz
  obtain ⟨-, h2, q, hq, -⟩ := hterm r (List.mem_of_mem_drop hr) z hz
  obtain ⟨j, -, rfl⟩ := List.mem_map.1 hz
  exact ⟨(h.zero r hr).1, h2, q, hq⟩

end Arctic.Fp
