import Verif.Lemmas.FloatSafe
import Verif.Lemmas.FloatSum

/-!
# The watermark array in double precision

For instant capture the volumes stay a block of positive numbers followed by zeros, whatever is rounded.
-/

set_option linter.unusedSectionVars false
set_option linter.unusedVariables false

namespace Arctic.Fp

variable {F : Type} {A : Arith F} {s : ℕ}

/-! ### what splitting and collapsing do to the list of rows -/

theorem shiftLoop_list {α : Type} (d : α) (w1 : List α) (k : ℕ) (hk : k < w1.length) :
    ((List.range k).foldl (fun w i => w.set i (w[i + 1]?.getD d)) w1).length = w1.length ∧
      ∀ m, ((List.range k).foldl (fun w i => w.set i (w[i + 1]?.getD d)) w1)[m]? =
        if m < k then w1[m + 1]? else w1[m]? := by
  induction k with
  | zero => exact ⟨rfl, fun m => by rw [if_neg (by omega)]; rfl⟩
  | succ k ih =>
    have ih := ih (by omega)
    rw [List.range_succ, List.foldl_append]
    simp only [List.foldl_cons, List.foldl_nil]
    generalize (List.range k).foldl (fun w i => w.set i (w[i + 1]?.getD d)) w1 = w2 at ih ⊢
    obtain ⟨hl, hg⟩ := ih
    refine ⟨by rw [List.length_set]; exact hl, fun m => ?_⟩
    rw [List.getElem?_set, hg (k + 1), if_neg (show ¬ k + 1 < k by omega)]
    by_cases h1 : k = m
    · subst h1
      rw [if_pos rfl, if_pos (by omega), if_pos (by omega), List.getElem?_eq_getElem (by omega)]
      rfl
    · rw [if_neg h1, hg m]
      by_cases h2 : m < k
      · rw [if_pos h2, if_pos (by omega)]
      · rw [if_neg h2, if_neg (by omega)]

/-- The running total of the volumes, as the compiled loops compute it. -/
def total (A : Arith F) (l : List F) : F := l.foldl A.add A.zero

/-- The volume given to the part below the cloud. -/
def lowerPart (A : Arith F) (pre : List F) (v cloud : F) : F :=
  A.sub cloud (A.sub (total A (pre ++ [v])) v)

theorem cyUpdateVolumes_list (pre rest : WM F s) (r : Row F s) (cloud : F) (hrest : rest ≠ []) :
    cyUpdateVolumes A (pre ++ r :: rest) cloud pre.length =
      .ok (pre ++ ⟨lowerPart A (pre.map Row.vol) r.vol cloud, r.fill⟩ ::
        ⟨A.sub r.vol (lowerPart A (pre.map Row.vol) r.vol cloud), r.fill⟩ :: rest.dropLast) := by
  have hrl : 0 < rest.length := List.length_pos_iff.2 hrest
  unfold cyUpdateVolumes
  rw [if_neg (by rw [List.length_append, List.length_cons]; omega)]
  have hne : pre ++ r :: rest ≠ [] := by simp
  have h1 : (pre ++ r :: rest)[pre.length]? = some r := by
    rw [List.getElem?_append_right le_rfl]; simp
  have h2 : ((pre ++ r :: rest).take (pre.length + 1)).map Row.vol = pre.map Row.vol ++ [r.vol] := by
    rw [List.take_append]; simp
  simp only [h1, h2, Option.getD_some]
  rw [roll_eq _ hne]
  set L := (pre ++ r :: rest).getLast hne with hL
  have hdl : (pre ++ r :: rest).dropLast = pre ++ r :: rest.dropLast := by
    rw [List.dropLast_append_of_ne_nil (by simp), List.dropLast_cons_of_ne_nil hrest]
  rw [hdl]
  have hw2 : (if pre.length = 0 then
        (L :: (pre ++ r :: rest.dropLast)).set 0
          ((L :: (pre ++ r :: rest.dropLast))[1]?.getD (zeroRow A s))
      else (List.range (pre.length + 1)).foldl
        (fun w i => w.set i (w[i + 1]?.getD (zeroRow A s))) (L :: (pre ++ r :: rest.dropLast))) =
      pre ++ r :: r :: rest.dropLast := by
    split
    · rename_i h0
      have : pre = [] := List.length_eq_zero_iff.1 h0
      subst this
      simp
    · have hlen : pre.length + 1 < (L :: (pre ++ r :: rest.dropLast)).length := by
        simp
      obtain ⟨hl, hg⟩ := shiftLoop_list (zeroRow A s) (L :: (pre ++ r :: rest.dropLast))
        (pre.length + 1) hlen
      apply List.ext_getElem?
      intro m
      rw [hg m]
      by_cases hm : m < pre.length + 1
      · rw [if_pos hm, List.getElem?_cons_succ]
        rcases Nat.lt_succ_iff_lt_or_eq.1 hm with h | h
        · rw [List.getElem?_append_left h, List.getElem?_append_left h]
        · subst h
          rw [List.getElem?_append_right le_rfl, List.getElem?_append_right le_rfl]; simp
      · rw [if_neg hm]
        obtain ⟨q, rfl⟩ : ∃ q, m = pre.length + 1 + q := ⟨m - (pre.length + 1), by omega⟩
        rw [show pre.length + 1 + q = (pre.length + q) + 1 by omega, List.getElem?_cons_succ,
          List.getElem?_append_right (by omega), List.getElem?_append_right (by omega)]
        rw [show pre.length + q - pre.length = q by omega,
          show pre.length + q + 1 - pre.length = q + 1 by omega, List.getElem?_cons_succ]
  rw [hw2]
  unfold setVol
  congr 1
  have m1 : ∀ (f : Row F s → Row F s) (x : Row F s) (xs : WM F s),
      (pre ++ x :: xs).modify pre.length f = pre ++ f x :: xs := by
    intro f x xs
    exact modify_append pre (x :: xs) 0 f
  rw [m1]
  have m2 : ∀ (f : Row F s → Row F s) (x y : Row F s) (xs : WM F s),
      (pre ++ x :: y :: xs).modify (pre.length + 1) f = pre ++ x :: f y :: xs := by
    intro f x y xs
    exact modify_append pre (x :: y :: xs) 1 f
  rw [m2]
  rfl

theorem collapseRows_list (k : ℕ) (wm : WM F s) (row0 : Row F s) (hk : 1 ≤ k) (hl : k ≤ wm.length) :
    collapseRows A k wm row0 = row0 :: wm.drop k ++ List.replicate (k - 1) (zeroRow A s) := by
  obtain ⟨k, rfl⟩ : ∃ j, k = j + 1 := ⟨k - 1, by omega⟩
  unfold collapseRows
  have e : List.replicate (k + 1) (zeroRow A s) ++ wm.drop (k + 1) =
      List.replicate k (zeroRow A s) ++ (zeroRow A s :: wm.drop (k + 1)) := by
    rw [List.replicate_succ', List.append_assoc]; rfl
  have hr : (List.replicate k (zeroRow A s) ++ (zeroRow A s :: wm.drop (k + 1))).rotate k =
      (zeroRow A s :: wm.drop (k + 1)) ++ List.replicate k (zeroRow A s) := by
    have := List.rotate_append_length_eq (List.replicate k (zeroRow A s)) (zeroRow A s :: wm.drop (k + 1))
    rwa [List.length_replicate] at this
  rw [e, Nat.add_sub_cancel, hr]
  rfl

/-! ### numbers -/

open B64

/-- Double precision with addition from left to right. -/
abbrev D : Arith B64 := B64.arith B64.sumLeft

/-- A positive number or `inf`. -/
def Pos (v : B64) : Prop := B64.lt B64.zero v = true

/-- Zero or NaN: never equal to one. -/
def Nil (x : B64) : Prop := x = .nan ∨ Val x 0

theorem pos_of_val {v : B64} {q : ℚ} (h : Val v q) (hq : 0 < q) : Pos v := by
  unfold Pos
  rw [val_lt val_zero h]
  simpa using hq

theorem Pos.val {v : B64} {q : ℚ} (h : Pos v) (hv : Val v q) : 0 < q := by
  unfold Pos at h
  rw [val_lt val_zero hv] at h
  simpa using h

theorem Pos.cases {v : B64} (h : Pos v) : v = .inf false ∨ ∃ q, 0 < q ∧ ∃ hq, v = .fin q hq := by
  cases v with
  | nan => cases h
  | inf n => cases n with
    | true => cases h
    | false => exact Or.inl rfl
  | negZero => cases h
  | fin q hq => exact Or.inr ⟨q, Pos.val h rfl, hq, rfl⟩

theorem pos_pack {q : ℚ} (h : 0 < B64.round q) : Pos (pack q) := by
  have hq : ¬ q < 0 := by
    intro hq
    have := roundPos_nonneg (q := -q) (by linarith)
    unfold B64.round at h
    rw [if_neg hq.ne, if_pos hq] at h
    linarith
  unfold pack
  rw [if_neg (by rintro ⟨h0, -⟩; linarith)]
  split
  · exact pos_of_val rfl h
  · rw [decide_eq_false hq]; rfl

theorem Pos.add {a b : B64} (ha : Pos a) (hb : Pos b) : Pos (B64.add a b) := by
  rcases ha.cases with rfl | ⟨p, p0, hp, rfl⟩ <;> rcases hb.cases with rfl | ⟨q, q0, hq, rfl⟩
  · rfl
  · rfl
  · rfl
  · change Pos (pack (p + q))
    have := round_mono_rep' hp (by linarith : p ≤ p + q)
    exact pos_pack (by linarith)

theorem zero_add_pos {v : B64} (h : Pos v) : B64.add B64.zero v = v := by
  rcases h.cases with rfl | ⟨q, q0, hq, rfl⟩
  · rfl
  · change pack (0 + q) = _
    rw [zero_add, pack_rep hq]

theorem pos_foldl {l : List B64} (h : ∀ v ∈ l, Pos v) {t : B64} (ht : Pos t) : Pos (l.foldl B64.add t) := by
  induction l generalizing t with
  | nil => exact ht
  | cons a l ih => exact ih (fun v hv => h v (List.mem_cons_of_mem _ hv)) (ht.add (h a List.mem_cons_self))

/-- For a list with a positive first number `np.sum` and the running total are the same. -/
theorem sumLeft_total {l : List B64} {a : B64} (ha : Pos a) : B64.sumLeft (a :: l) = total D (a :: l) := by
  change l.foldl B64.add a = (a :: l).foldl B64.add B64.zero
  rw [List.foldl_cons, zero_add_pos ha]

theorem Nil.mul {e x : B64} (h : Nil x) : Nil (B64.mul e x) := by
  rcases h with rfl | h
  · cases e <;> exact Or.inl rfl
  have fin : ∀ {q : ℚ}, Val e q → Nil (B64.mul e x) := by
    intro q hq
    right
    have := val_mul hq h (by rw [mul_zero, round_zero]; unfold limit; simp)
    rwa [mul_zero, round_zero] at this
  cases e with
  | nan => exact Or.inl rfl
  | inf n =>
    left
    rcases h.cases with ⟨rfl, -⟩ | ⟨hr, rfl⟩
    · rfl
    · rfl
  | negZero => exact fin (q := 0) rfl
  | fin q hq => exact fin (q := q) rfl

theorem Nil.add {x y : B64} (hx : Nil x) (hy : Nil y) : Nil (B64.add x y) := by
  rcases hx with rfl | hx
  · exact Or.inl rfl
  rcases hy with rfl | hy
  · cases x <;> exact Or.inl rfl
  · right
    have := val_add hx hy (by rw [add_zero, round_zero]; unfold limit; simp)
    rwa [add_zero, round_zero] at this

theorem Nil.ne_one {x : B64} (h : Nil x) : B64.eq x B64.one = false := by
  rcases h with rfl | h
  · rfl
  · have h1 : key x = some (0, 0) := h
    unfold B64.eq
    rw [h1]
    decide +kernel

theorem nil_zero : Nil B64.zero := Or.inr rfl

/-! ### the split -/

theorem val_eq {x y : B64} {a b : ℚ} (hx : Val x a) (hy : Val y b) : B64.eq x y = decide (a = b) := by
  unfold B64.eq
  rw [hx, hy]
  simp

theorem val_le {x y : B64} {a b : ℚ} (hx : Val x a) (hy : Val y b) : B64.le x y = decide (a ≤ b) := by
  unfold B64.le
  rw [val_lt hx hy, val_eq hx hy, ← Bool.decide_or]
  congr 1
  exact propext le_iff_lt_or_eq.symm

/-- Numbers up to here are far from overflow. -/
def big : ℚ := 2 ^ 900

theorem big_lt : 4 * big < limit := by
  unfold big limit
  have e : (2 : ℚ) ^ 1024 = 2 ^ 900 * 2 ^ 124 := by rw [← pow_add]
  have : (0 : ℚ) < 2 ^ 900 := by positivity
  rw [e]
  generalize (2 : ℚ) ^ 900 = y at this ⊢
  norm_num
  linarith

theorem three_big : 3 * big ≤ 2 ^ 1000 := by
  unfold big
  have e : (2 : ℚ) ^ 1000 = 2 ^ 900 * 2 ^ 100 := by rw [← pow_add]
  have : (0 : ℚ) < 2 ^ 900 := by positivity
  rw [e]
  generalize (2 : ℚ) ^ 900 = y at this ⊢
  norm_num
  linarith

theorem round_small {q : ℚ} (h : |q| ≤ 3 * big) : |B64.round q| < limit := round_bound (h.trans three_big)

/-- Twice a double is a double. -/
theorem rep_double {t : ℚ} (h : Rep t) (h0 : 0 ≤ t) (hb : t ≤ big) : Rep (2 * t) := by
  have hb' := big_lt
  rcases h0.eq_or_lt with rfl | h0
  · rw [mul_zero]; exact rep_zero
  obtain ⟨n, n0, n1, hn⟩ := h.grid h0
  refine ⟨?_, by rw [abs_of_pos (by linarith)]; linarith⟩
  have e : 2 * t = n * 2 ^ (ulpExp t + 1) := by
    rw [zpow_add_one₀ (by norm_num), ← mul_assoc, ← hn]; ring
  rw [e]
  exact round_grid (by omega) n1 (by have := ulpExp_ge t; omega)

/-- With `t` the total below a watermark of volume `v`, and a cloud `x` between `t` and the rounded total `c`: the lower
part is smaller than `v`, and at most `t` minus one unit below zero. -/
theorem lower_bounds {t v x : ℚ} (ht : Rep t) (hv : Rep v) (hx : Rep x) (t0 : 0 ≤ t) (v0 : 0 < v) (tb : t ≤ big)
    (hc : Rep (B64.round (t + v))) (h1 : t < x) (h2 : x < B64.round (t + v)) :
    B64.round (x - B64.round (B64.round (t + v) - v)) < v ∧ (0 < t → 0 < t + B64.round (x - B64.round (B64.round (t + v) - v))) ∧
      (t = 0 → B64.round (x - B64.round (B64.round (t + v) - v)) = x) := by
  have hvc : v ≤ B64.round (t + v) := round_mono_rep' hv (by linarith)
  refine ⟨split_below_lt hv hc hx v0 hvc (by linarith) h2, fun tp => ?_, fun h0 => ?_⟩
  · -- the rounded total is no farther from `t + v` than `v` is
    have hcv : B64.round (t + v) - v ≤ 2 * t := by
      by_contra hcon
      push Not at hcon
      -- `round (t + v)` is above `2 t + v`, while `t + v` is nearer to `v`
      have hp : 0 < t + v := by linarith
      have herr := abs_le.1 (roundPos_half (t + v))
      rw [← round_pos hp] at herr
      have hhalf : t < 2 ^ ulpExp (t + v) / 2 := by linarith [herr.2]
      -- so `v` is a multiple of the unit of the sum or in a lower binade
      have hu := two_zpow_pos (ulpExp (t + v))
      by_cases hl : ulpExp (t + v) ≤ ulpExp v
      · obtain ⟨m, -, hm⟩ := hv.multipleOf (e := ulpExp (t + v)) v0.le fun _ => hl
        have hr : B64.round (t + v) = v := by
          rw [round_pos hp]
          unfold roundPos
          have hd : (t + v) / 2 ^ ulpExp (t + v) = t / 2 ^ ulpExp (t + v) + m := by
            have : v / 2 ^ ulpExp (t + v) = m := by rw [div_eq_iff hu.ne']; exact hm
            rw [add_div, this]
          have ht1 : t / 2 ^ ulpExp (t + v) < 1 / 2 := by
            rw [div_lt_iff₀ hu]; linarith
          have ht0 : 0 < t / 2 ^ ulpExp (t + v) := by positivity
          have hi : toInt ((t + v) / 2 ^ ulpExp (t + v)) = m := by
            rw [hd]
            have hf : ⌊t / 2 ^ ulpExp (t + v) + (m : ℚ)⌋ = m := by
              rw [Int.floor_eq_iff]
              constructor <;> linarith
            unfold toInt
            simp only [hf]
            rw [if_pos (by linarith)]
          rw [hi, ← hm]
        linarith
      · -- the sum is in a higher binade: the power of two between them is nearer
        push Not at hl
        have hl2 : log2 v < log2 (t + v) := by
          unfold ulpExp at hl; omega
        have hpw : (2 : ℚ) ^ log2 (t + v) ≤ t + v := (log2_spec hp).1
        have hvlt : v < 2 ^ log2 (t + v) :=
          (log2_spec v0).2.trans_le (zpow_le_zpow_right₀ (by norm_num) (by omega))
        have hue : ulpExp (t + v) = log2 (t + v) - 52 := by unfold ulpExp at hl ⊢; omega
        have hB : (2 : ℚ) ^ log2 (t + v) = ((2 ^ 52 : ℤ) : ℚ) * 2 ^ ulpExp (t + v) := by
          have e : (((2 ^ 52 : ℤ)) : ℚ) = 2 ^ (52 : ℤ) := by norm_num
          have e2 : (52 : ℤ) + (log2 (t + v) - 52) = log2 (t + v) := by omega
          rw [hue, e, ← zpow_add₀ (by norm_num), e2]
        -- `t + v - 2 ^ e < t < u / 2`
        have hr : B64.round (t + v) = 2 ^ log2 (t + v) := by
          rw [round_pos hp]
          unfold roundPos
          have hd : (t + v) / 2 ^ ulpExp (t + v) =
              (t + v - 2 ^ log2 (t + v)) / 2 ^ ulpExp (t + v) + ((2 ^ 52 : ℤ) : ℚ) := by
            rw [sub_div, hB]
            field_simp
            ring
          have ht1 : (t + v - 2 ^ log2 (t + v)) / 2 ^ ulpExp (t + v) < 1 / 2 := by
            rw [div_lt_iff₀ hu]; linarith
          have ht0 : 0 ≤ (t + v - 2 ^ log2 (t + v)) / 2 ^ ulpExp (t + v) := div_nonneg (by linarith) hu.le
          have hi : toInt ((t + v) / 2 ^ ulpExp (t + v)) = 2 ^ 52 := by
            rw [hd]
            generalize (t + v - 2 ^ log2 (t + v)) / 2 ^ ulpExp (t + v) = y at ht0 ht1
            have hf : ⌊y + ((2 ^ 52 : ℤ) : ℚ)⌋ = 2 ^ 52 := by
              rw [Int.floor_eq_iff]
              constructor <;> linarith
            unfold toInt
            simp only [hf]
            rw [if_pos (by linarith)]
          rw [hi, hB]
        linarith
    have ha : B64.round (B64.round (t + v) - v) ≤ 2 * t := round_mono_rep (rep_double ht t0 tb) hcv
    have hut := two_zpow_pos (ulpExp t)
    -- the cloud is at least a unit above `t`
    have hxt : t + 2 ^ ulpExp t ≤ x := by
      obtain ⟨n, -, -, hn⟩ := ht.grid tp
      obtain ⟨m, -, hm⟩ := hx.multipleOf (e := ulpExp t) (by linarith) fun _ => ulpExp_mono tp h1.le
      have h3 : (n : ℚ) * 2 ^ ulpExp t < m * 2 ^ ulpExp t := by rw [← hm, ← hn]; exact h1
      have h4 : n < m := by exact_mod_cast lt_of_mul_lt_mul_right h3 hut.le
      have h5 : (n : ℚ) + 1 ≤ m := by exact_mod_cast h4
      have h6 := mul_le_mul_of_nonneg_right h5 hut.le
      rw [← hm, add_mul, ← hn, one_mul] at h6
      exact h6
    have := round_mono_rep' (ht.below tp).neg (by linarith : -(t - 2 ^ ulpExp t) ≤ x - B64.round (B64.round (t + v) - v))
    linarith
  · subst h0
    rw [zero_add, hv.1, sub_self, B64.round_zero, sub_zero, hx.1]

/-! ### the array -/

/-- No species of the row is equal to one. -/
def NilRow (r : Row B64 s) : Prop := ∀ j, Nil (r.fill j)

/-- The array is a block of `m` positive volumes followed by zeros, and above the block nothing is filled. -/
structure Formed (m : ℕ) (wm : WM B64 s) : Prop where
  le : m ≤ wm.length
  pos : ∀ r ∈ wm.take m, Pos r.vol
  zero : ∀ r ∈ wm.drop m, Val r.vol 0
  fills : ∀ r ∈ wm.drop (max m 1), NilRow r

theorem argmaxTrue_eq {l : List Bool} {k : ℕ} (h : l[k]? = some true) (h' : ∀ i < k, l[i]? = some false) :
    argmaxTrue l = k := by
  refine le_antisymm (argmaxTrue_le h) ?_
  by_contra hc
  push Not at hc
  have h2 := h' _ hc
  unfold argmaxTrue at h2 hc
  have hex : l.findIdx id < l.length := by
    refine List.findIdx_lt_length_of_exists ⟨true, ?_, rfl⟩
    exact List.mem_iff_getElem?.2 ⟨k, h⟩
  rw [if_pos hex] at h2 hc
  have h3 := List.findIdx_getElem (w := hex)
  obtain ⟨_, h4⟩ := List.getElem?_eq_some_iff.1 h2
  rw [h4] at h3
  cases h3

theorem argmaxTrue_between {l : List Bool} {k j : ℕ} (h : l[k]? = some true) (h' : ∀ i < j, l[i]? = some false) :
    j ≤ argmaxTrue l := by
  by_contra hc
  push Not at hc
  have h2 := h' _ hc
  unfold argmaxTrue at h2 hc
  have hex : l.findIdx id < l.length := by
    refine List.findIdx_lt_length_of_exists ⟨true, ?_, rfl⟩
    exact List.mem_iff_getElem?.2 ⟨k, h⟩
  rw [if_pos hex] at h2 hc
  have h3 := List.findIdx_getElem (w := hex)
  obtain ⟨_, h4⟩ := List.getElem?_eq_some_iff.1 h2
  rw [h4] at h3
  cases h3

theorem pos_ne_zero {v : B64} (h : Pos v) : B64.eq v B64.zero = false := by
  rcases h.cases with rfl | ⟨q, q0, hq, rfl⟩
  · rfl
  · rw [val_eq (show Val (B64.fin q hq) q from rfl) val_zero]
    simpa using q0.ne'

theorem mem_take_of {α : Type} {l : List α} {m i : ℕ} {r : α} (h : l[i]? = some r) (hi : i < m) : r ∈ l.take m := by
  rw [List.mem_iff_getElem?]
  exact ⟨i, by rw [List.getElem?_take, if_pos hi]; exact h⟩

theorem mem_drop_of {α : Type} {l : List α} {m i : ℕ} {r : α} (h : l[i]? = some r) (hi : m ≤ i) : r ∈ l.drop m := by
  rw [List.mem_iff_getElem?]
  exact ⟨i - m, by rw [List.getElem?_drop, Nat.add_sub_cancel' hi]; exact h⟩

theorem Formed.maxIndex {m : ℕ} {wm : WM B64 s} (h : Formed m wm) (hm : m < wm.length) :
    maxWatermarkIndex D wm = (m : ℤ) - 1 := by
  unfold maxWatermarkIndex
  rw [argmaxTrue_eq (k := m)]
  · rw [List.getElem?_map, List.getElem?_eq_getElem hm, Option.map_some]
    congr 1
    change B64.eq _ B64.zero = true
    rw [val_eq (h.zero _ (mem_drop_of (List.getElem?_eq_getElem hm) le_rfl)) val_zero]
    simp
  · intro i hi
    rw [List.getElem?_map, List.getElem?_eq_getElem (by omega), Option.map_some]
    congr 1
    exact pos_ne_zero (h.pos _ (mem_take_of (List.getElem?_eq_getElem (by omega)) hi))

/-- Changing the fills of the rows of the block. -/
theorem Formed.mapFills {m n : ℕ} {wm : WM B64 s} (h : Formed m wm) (hn : n ≤ max m 1) (g : Fin s → B64 → B64) :
    Formed m (mapFills 0 n g wm) := by
  have hv := mapFills_vols 0 n g wm
  have hl := mapFills_length 0 n g wm
  have vol : ∀ (i : ℕ) (r : Row B64 s), (Fp.mapFills 0 n g wm)[i]? = some r → ∃ q : Row B64 s, wm[i]? = some q ∧ q.vol = r.vol := by
    intro i r hr
    have h1 : ((Fp.mapFills 0 n g wm).map Row.vol)[i]? = some r.vol := by rw [List.getElem?_map, hr]; rfl
    rw [hv, List.getElem?_map] at h1
    cases hw : wm[i]? with
    | none => rw [hw] at h1; cases h1
    | some q => rw [hw] at h1; exact ⟨q, rfl, by injection h1⟩
  refine ⟨by rw [hl]; exact h.le, ?_, ?_, ?_⟩
  · intro r hr
    obtain ⟨i, hi⟩ := List.mem_iff_getElem?.1 hr
    rw [List.getElem?_take] at hi
    split at hi
    · rename_i him
      obtain ⟨q, hq, e⟩ := vol i r hi
      rw [← e]; exact h.pos q (mem_take_of hq him)
    · cases hi
  · intro r hr
    obtain ⟨i, hi⟩ := List.mem_iff_getElem?.1 hr
    rw [List.getElem?_drop] at hi
    obtain ⟨q, hq, e⟩ := vol _ r hi
    rw [← e]; exact h.zero q (mem_drop_of hq (by omega))
  · intro r hr
    obtain ⟨i, hi⟩ := List.mem_iff_getElem?.1 hr
    rw [List.getElem?_drop] at hi
    unfold Fp.mapFills at hi
    rw [List.getElem?_mapIdx] at hi
    cases hw : wm[max m 1 + i]? with
    | none => rw [hw] at hi; cases hi
    | some q =>
      rw [hw, Option.map_some, if_neg (by omega)] at hi
      injection hi with hi
      rw [← hi]; exact h.fills q (mem_drop_of hw (by omega))

theorem notEnough_formed {m : ℕ} {wm init : WM B64 s} (h : Formed m wm) (hl : init.length = wm.length)
    (hi : ∀ r ∈ init.drop (max m 1), NilRow r) (e : B64) : Formed m (notEnough D wm init e) := by
  have hlen : (notEnough D wm init e).length = wm.length := by
    unfold notEnough
    rw [List.length_zipWith, hl, min_self]
  have row : ∀ (i : ℕ) (r : Row B64 s), (notEnough D wm init e)[i]? = some r → ∃ q q0 : Row B64 s, wm[i]? = some q ∧ init[i]? = some q0 ∧
      q.vol = r.vol ∧ ∀ j, r.fill j = B64.add (B64.mul e (q.fill j)) (B64.mul (B64.sub B64.one e) (q0.fill j)) := by
    intro i r hr
    unfold notEnough at hr
    rw [List.getElem?_zipWith] at hr
    cases hw : wm[i]? with
    | none => rw [hw] at hr; cases hr
    | some q =>
      cases hw0 : init[i]? with
      | none => rw [hw, hw0] at hr; cases hr
      | some q0 =>
        rw [hw, hw0] at hr
        injection hr with hr
        subst hr
        exact ⟨q, q0, rfl, rfl, rfl, fun j => rfl⟩
  refine ⟨by rw [hlen]; exact h.le, ?_, ?_, ?_⟩
  · intro r hr
    obtain ⟨i, hi⟩ := List.mem_iff_getElem?.1 hr
    rw [List.getElem?_take] at hi
    split at hi
    · rename_i him
      obtain ⟨q, -, hq, -, e, -⟩ := row i r hi
      rw [← e]; exact h.pos q (mem_take_of hq him)
    · cases hi
  · intro r hr
    obtain ⟨i, hi⟩ := List.mem_iff_getElem?.1 hr
    rw [List.getElem?_drop] at hi
    obtain ⟨q, -, hq, -, e, -⟩ := row _ r hi
    rw [← e]; exact h.zero q (mem_drop_of hq (by omega))
  · intro r hr j
    obtain ⟨i, hi'⟩ := List.mem_iff_getElem?.1 hr
    rw [List.getElem?_drop] at hi'
    obtain ⟨q, q0, hq, hq0, -, e⟩ := row _ r hi'
    rw [e]
    exact (h.fills q (mem_drop_of hq (by omega)) j).mul.add (hi q0 (mem_drop_of hq0 (by omega)) j).mul

/-! ### the collapse -/

/-- At least zero, and a number. -/
def Good (x : B64) : Prop := B64.le B64.zero x = true

/-- What is asked of the fills for the two classes: nothing if a filled trap has the value one; if it has the value zero,
as for elapsed times, no negative number and no NaN. -/
def Fl (fl : B64) (wm : WM B64 s) : Prop := fl = B64.one ∨ (fl = B64.zero ∧ ∀ r ∈ wm, ∀ a, Good (r.fill a))

theorem Nil.eq_zero {x : B64} (h : Nil x) (hg : Good x) : B64.eq x B64.zero = true := by
  rcases h with rfl | h
  · cases hg
  · rw [val_eq h val_zero]; simp

theorem argmaxTrue_mem (l : List Bool) : argmaxTrue l = 0 ∨ l[argmaxTrue l]? = some true := by
  unfold argmaxTrue
  split
  · rename_i h
    right
    rw [List.getElem?_eq_getElem h]
    exact congrArg some (List.findIdx_getElem (w := h))
  · exact Or.inl rfl

theorem indexNotFilled_mem [NeZero s] (fl : B64) (wm : WM B64 s) : ∃ a : Fin s,
    indexNotFilled D fl wm = argmaxTrue (wm.map fun r => !D.eq (r.fill a) fl) := by
  unfold indexNotFilled
  have hmem : argmaxTrue (wm.map fun r => !D.eq (r.fill 0) fl) ∈
      (List.finRange s).map fun i => argmaxTrue (wm.map fun r => !D.eq (r.fill i) fl) :=
    List.mem_map.2 ⟨0, List.mem_finRange _, rfl⟩
  cases h : ((List.finRange s).map fun i => argmaxTrue (wm.map fun r => !D.eq (r.fill i) fl)).min? with
  | none =>
    rw [List.min?_eq_none_iff] at h
    rw [h] at hmem
    simp at hmem
  | some x =>
    have hx := List.min?_mem h
    obtain ⟨i, -, hi⟩ := List.mem_map.1 hx
    exact ⟨i, by rw [Option.getD_some, ← hi]⟩

/-- Only rows of the block are collapsed. -/
theorem indexNotFilled_le_block [NeZero s] {m : ℕ} {fl : B64} {wm : WM B64 s} (hm : m < wm.length)
    (hnil : ∀ r ∈ wm.drop m, NilRow r) (hf : Fl fl wm) : indexNotFilled D fl wm ≤ m := by
  obtain ⟨a, ha⟩ := indexNotFilled_mem fl wm
  rw [ha]
  rcases hf with rfl | ⟨rfl, hg⟩
  · refine argmaxTrue_le ?_
    rw [List.getElem?_map, List.getElem?_eq_getElem hm, Option.map_some]
    congr 1
    have := (hnil _ (mem_drop_of (List.getElem?_eq_getElem hm) le_rfl) a).ne_one
    change (!B64.eq _ _) = true
    rw [this]; rfl
  · rcases argmaxTrue_mem (wm.map fun r => !D.eq (r.fill a) B64.zero) with h | h
    · omega
    · by_contra hc
      generalize argmaxTrue (wm.map fun r => !D.eq (r.fill a) B64.zero) = k at h hc
      rw [List.getElem?_map] at h
      cases hr : wm[k]? with
      | none => rw [hr] at h; cases h
      | some r =>
        rw [hr] at h
        have h2 : (!B64.eq (r.fill a) B64.zero) = true := Option.some.inj h
        rw [(hnil r (mem_drop_of hr (by omega)) a).eq_zero (hg r (List.mem_iff_getElem?.2 ⟨k, hr⟩) a)] at h2
        cases h2

/-- All filled rows at the bottom are collapsed, if some row is not filled. -/
theorem indexNotFilled_ge [NeZero s] {j i : ℕ} {fl : B64} {wm : WM B64 s} {r : Row B64 s}
    (hj : ∀ i < j, ∀ r, wm[i]? = some r → ∀ a, B64.eq (r.fill a) fl = true)
    (hr : wm[i]? = some r) (hn : ∀ a, B64.eq (r.fill a) fl = false) : j ≤ indexNotFilled D fl wm := by
  obtain ⟨a, ha⟩ := indexNotFilled_mem fl wm
  rw [ha]
  have top : (wm.map fun r => !D.eq (r.fill a) fl)[i]? = some true := by
    rw [List.getElem?_map, hr, Option.map_some]
    change some (!B64.eq _ _) = _
    rw [hn a]; rfl
  have hji : j ≤ i := by
    by_contra hc
    have := hn a
    rw [hj i (by omega) r hr a] at this
    cases this
  have hil : i < wm.length := (List.getElem?_eq_some_iff.1 hr).1
  refine argmaxTrue_between top fun b hb => ?_
  rw [List.getElem?_map, List.getElem?_eq_getElem (by omega), Option.map_some]
  have := hj b hb _ (List.getElem?_eq_getElem (by omega)) a
  change some (!B64.eq _ _) = _
  rw [this]; rfl

/-- Nothing is collapsed if all rows are filled: there is no first row that is not. -/
theorem indexNotFilled_all [NeZero s] {fl : B64} {wm : WM B64 s} (h : ∀ r ∈ wm, ∀ a, B64.eq (r.fill a) fl = true) :
    indexNotFilled D fl wm = 0 := by
  obtain ⟨a, ha⟩ := indexNotFilled_mem fl wm
  rw [ha]
  rcases argmaxTrue_mem (wm.map fun r => !D.eq (r.fill a) fl) with h1 | h1
  · exact h1
  · exfalso
    generalize argmaxTrue (wm.map fun r => !D.eq (r.fill a) fl) = k at h1
    rw [List.getElem?_map] at h1
    cases hr : wm[k]? with
    | none => rw [hr] at h1; cases h1
    | some r =>
      rw [hr] at h1
      have h2 : (!B64.eq (r.fill a) fl) = true := Option.some.inj h1
      rw [h r (List.mem_iff_getElem?.2 ⟨k, hr⟩) a] at h2
      cases h2

theorem nilRow_zeroRow : NilRow (zeroRow D s) := fun _ => nil_zero

/-- What the collapse leaves of an array whose filled rows have a positive sum and whose other rows are positive. -/
theorem collapse_shape {m k : ℕ} {wm : WM B64 s} {row0 : Row B64 s} (hk : 2 ≤ k) (hkm : k ≤ m) (hm : m < wm.length)
    (h0 : Pos row0.vol) (hp : ∀ r ∈ (wm.take m).drop k, Pos r.vol) (hz : ∀ r ∈ wm.drop m, Val r.vol 0)
    (hn : ∀ r ∈ wm.drop m, NilRow r) : Formed (m + 1 - k) (collapseRows D k wm row0) := by
  have e : collapseRows D k wm row0 =
      (row0 :: (wm.take m).drop k) ++ (wm.drop m ++ List.replicate (k - 1) (zeroRow D s)) := by
    rw [collapseRows_list k wm row0 (by omega) (by omega), ← List.append_assoc]
    congr 1
    rw [List.cons_append]
    congr 1
    conv_lhs => rw [← List.take_append_drop m wm]
    rw [List.drop_append_of_le_length (by rw [List.length_take]; omega)]
  have hl : (row0 :: (wm.take m).drop k).length = m + 1 - k := by simp; omega
  refine ⟨?_, ?_, ?_, ?_⟩
  · rw [e, List.length_append, hl]; omega
  · rw [e, List.take_left' hl]
    intro r hr
    rcases List.mem_cons.1 hr with rfl | hr
    · exact h0
    · exact hp r hr
  · rw [e, List.drop_left' hl]
    intro r hr
    rcases List.mem_append.1 hr with hr | hr
    · exact hz r hr
    · rw [List.eq_of_mem_replicate hr]; exact val_zero
  · rw [max_eq_left (by omega), e, List.drop_left' hl]
    intro r hr
    rcases List.mem_append.1 hr with hr | hr
    · exact hn r hr
    · rw [List.eq_of_mem_replicate hr]; exact nilRow_zeroRow

theorem collapse_nil {m k : ℕ} {wm : WM B64 s} {row0 : Row B64 s} (hk : 2 ≤ k) (hkm : k ≤ m) (hm : m < wm.length)
    (hn : ∀ r ∈ wm.drop m, NilRow r) : ∀ r ∈ (collapseRows D k wm row0).drop (m + 1 - k), NilRow r := by
  have e : collapseRows D k wm row0 =
      (row0 :: (wm.take m).drop k) ++ (wm.drop m ++ List.replicate (k - 1) (zeroRow D s)) := by
    rw [collapseRows_list k wm row0 (by omega) (by omega), ← List.append_assoc]
    congr 1
    rw [List.cons_append]
    congr 1
    conv_lhs => rw [← List.take_append_drop m wm]
    rw [List.drop_append_of_le_length (by rw [List.length_take]; omega)]
  have hl : (row0 :: (wm.take m).drop k).length = m + 1 - k := by simp; omega
  rw [e, List.drop_left' hl]
  intro r hr
  rcases List.mem_append.1 hr with hr | hr
  · exact hn r hr
  · rw [List.eq_of_mem_replicate hr]; exact nilRow_zeroRow

theorem pos_volumeFilled {k : ℕ} {wm : WM B64 s} (hk : 1 ≤ k) (hne : wm ≠ []) (hp : ∀ r ∈ wm.take k, Pos r.vol) :
    Pos (volumeFilled D k wm) := by
  obtain ⟨r, l, rfl⟩ := List.exists_cons_of_ne_nil hne
  obtain ⟨k, rfl⟩ : ∃ j, k = j + 1 := ⟨k - 1, by omega⟩
  unfold volumeFilled
  rw [List.take_succ_cons, List.map_cons]
  rw [List.take_succ_cons] at hp
  exact pos_foldl (fun v hv => by
    obtain ⟨q, hq, rfl⟩ := List.mem_map.1 hv
    exact hp q (List.mem_cons_of_mem _ hq)) (hp r List.mem_cons_self)

/-- The volumes of the block are not negative. -/
theorem Formed.nonneg {m : ℕ} {B : ℚ} {wm : WM B64 s} (h : Formed m wm) (hs : VolSized B (wm.map Row.vol)) :
    ∀ v ∈ wm.map Row.vol, ∃ q, Val v q ∧ 0 ≤ q := by
  intro v hv
  obtain ⟨q, hq⟩ := hs.1 v hv
  refine ⟨q, hq, ?_⟩
  obtain ⟨r, hr, rfl⟩ := List.mem_map.1 hv
  rw [← List.take_append_drop m wm] at hr
  rcases List.mem_append.1 hr with hr | hr
  · exact ((h.pos r hr).val hq).le
  · rw [hq.unique (h.zero r hr)]

theorem Formed.partials {m : ℕ} {B : ℚ} {wm : WM B64 s} (h : Formed m wm) (hs : VolSized B (wm.map Row.vol)) (hB : B ≤ 8)
    (i : ℕ) : |vsum ((wm.map Row.vol).take i)| ≤ 8 := by
  obtain ⟨h1, h2⟩ := hs.partial (h.nonneg hs) i
  rw [abs_le]
  constructor <;> linarith

theorem collapseRows_vols {k : ℕ} {wm : WM B64 s} {row0 : Row B64 s} (hk : 1 ≤ k) (hl : k ≤ wm.length) :
    (collapseRows D k wm row0).map Row.vol =
      row0.vol :: (wm.map Row.vol).drop k ++ List.replicate (k - 1) B64.zero := by
  rw [collapseRows_list k wm row0 hk hl, List.map_append, List.map_cons, List.map_drop, List.map_replicate]
  rfl

theorem VolSized.collapseRows {B : ℚ} {m k : ℕ} {wm : WM B64 s} (hs : VolSized B (wm.map Row.vol)) (hk : 1 ≤ k) (hkm : k ≤ m)
    (hm : m < wm.length) (hb : ∀ i ≤ m, |vsum ((wm.map Row.vol).take i)| ≤ 8) (hn : (m : ℚ) * err ≤ 1)
    {f : Fin s → B64} :
    VolSized (B + m * err) ((collapseRows D k wm ⟨volumeFilled D k wm, f⟩).map Row.vol) := by
  have hkq : (k : ℚ) ≤ m := by exact_mod_cast hkm
  have hke : (k : ℚ) * err ≤ m * err := mul_le_mul_of_nonneg_right hkq err_pos.le
  rw [collapseRows_vols hk (by omega)]
  have := hs.collapse (k := k) (by rw [List.length_map]; omega) (fun i hi => hb i (by omega)) (hke.trans hn) (k - 1)
  rw [← List.map_take] at this
  exact this.mono (by linarith)

theorem collapse_formed [NeZero s] {m : ℕ} {B : ℚ} {fl : B64} {wm : WM B64 s} (h : Formed m wm) (hm : m < wm.length)
    (hm1 : 1 < wm.length) (hg : Fl fl wm) (hs : VolSized B (wm.map Row.vol)) (hB : B ≤ 8) (hn : (m : ℚ) * err ≤ 1) :
    ∃ m' ≤ m, Formed m' (collapse D fl wm) ∧ VolSized (B + m * err) ((collapse D fl wm).map Row.vol) := by
  unfold collapse
  simp only
  have hb := indexNotFilled_le_block (m := max m 1) (wm := wm) (by omega) h.fills hg
  have hme : 0 ≤ (m : ℚ) * err := mul_nonneg (Nat.cast_nonneg _) err_pos.le
  split
  · exact ⟨m, le_rfl, h, hs.mono (by linarith)⟩
  · rename_i hk
    generalize indexNotFilled D fl wm = k at hb hk
    have hk2 : 2 ≤ k := by omega
    have hkm : k ≤ m := by omega
    have hfl := h.fills
    rw [max_eq_left (by omega)] at hfl
    refine ⟨m + 1 - k, by omega, collapse_shape hk2 hkm (by omega) ?_ (fun r hr => h.pos r (List.mem_of_mem_drop hr))
      h.zero hfl, hs.collapseRows (by omega) hkm hm (fun i _ => h.partials hs hB i) hn⟩
    refine pos_volumeFilled (by omega) (by intro e; rw [e] at hm; simp at hm) fun r hr => h.pos r ?_
    obtain ⟨i, hi⟩ := List.mem_iff_getElem?.1 hr
    rw [List.getElem?_take] at hi
    split at hi
    · exact mem_take_of hi (by omega)
    · cases hi

theorem collapse_length64 {f : B64} (wm : WM B64 s) : (collapse D f wm).length = wm.length := by
  unfold collapse
  simp only
  split
  · rfl
  · exact collapseRows_length (indexNotFilled_le _ _)

theorem good_zero : Good B64.zero := by unfold Good; decide +kernel

theorem Fl.of {fl : B64} {wm wm' : WM B64 s} (h : Fl fl wm)
    (hr : ∀ r' ∈ wm', (∃ r ∈ wm, r'.fill = r.fill) ∨ ∀ a, r'.fill a = fl ∨ r'.fill a = B64.zero) : Fl fl wm' := by
  rcases h with h | ⟨rfl, h⟩
  · exact Or.inl h
  · refine Or.inr ⟨rfl, fun r' hr' a => ?_⟩
    rcases hr r' hr' with ⟨r, hr, e⟩ | e
    · rw [e]; exact h r hr a
    · rw [or_self_iff.1 (e a)]; exact good_zero

theorem Fl.collapseRows {k : ℕ} {fl v : B64} {wm : WM B64 s} (h : Fl fl wm) (hk : 1 ≤ k) (hl : k ≤ wm.length) :
    Fl fl (collapseRows D k wm ⟨v, fun _ => fl⟩) := by
  refine h.of fun r hr => ?_
  rw [collapseRows_list k wm _ hk hl, List.mem_append] at hr
  rcases hr with hr | hr
  · rcases List.mem_cons.1 hr with rfl | hr
    · exact Or.inr fun _ => Or.inl rfl
    · exact Or.inl ⟨r, List.mem_of_mem_drop hr, rfl⟩
  · rw [List.eq_of_mem_replicate hr]
    exact Or.inr fun _ => Or.inr rfl

theorem Fl.collapse {fl : B64} {wm : WM B64 s} (h : Fl fl wm) : Fl fl (collapse D fl wm) := by
  unfold Fp.collapse
  simp only
  split
  · exact h
  · exact h.collapseRows (by omega) (indexNotFilled_le _ _)

theorem Fl.collapseCopy {fl : B64} {wm init : WM B64 s} (h : Fl fl wm) : Fl fl (collapseCopy D fl wm init).1 := by
  unfold Fp.collapseCopy
  simp only
  split
  · exact h
  · exact h.collapseRows (by omega) (indexNotFilled_le _ _)

theorem Fl.mapFills {fl : B64} {wm : WM B64 s} (h : Fl fl wm) (n : ℕ) : Fl fl (mapFills 0 n (fun _ _ => fl) wm) := by
  refine h.of fun r' hr => ?_
  unfold Fp.mapFills at hr
  obtain ⟨i, hi⟩ := List.mem_iff_getElem?.1 hr
  rw [List.getElem?_mapIdx] at hi
  cases hw : wm[i]? with
  | none => rw [hw] at hi; cases hi
  | some r =>
    rw [hw, Option.map_some] at hi
    have hi := Option.some.inj hi
    split at hi
    · rw [← hi]; exact Or.inr fun _ => Or.inl rfl
    · rw [← hi]; exact Or.inl ⟨r, List.mem_iff_getElem?.2 ⟨i, hw⟩, rfl⟩

/-! ### the end of a capture -/

/-- The two classes with instant capture: one mixes the array with its copy if there are not enough electrons, the other
raises. -/
def OpsOk (ops : ICOps B64 s) : Prop :=
  (ops.filled = B64.one ∧ ∀ w w0 e, ops.tweak w w0 e = .ok (notEnough D w w0 e)) ∨
    (ops.filled = B64.zero ∧ ∀ w w0 e, ∃ x, ops.tweak w w0 e = .error x)

/-- Enough that the collapse of the array with its copy is well formed. -/
theorem finish_formed [NeZero s] {M m : ℕ} {B : ℚ} {wm init : WM B64 s} {ops : ICOps B64 s} {fl : B64} (hops : OpsOk ops)
    (hfl : ops.filled = fl) (nFree nInit : B64) (hg : Fl fl (collapseCopy D fl wm init).1)
    (hM : m ≤ M) (hl : M < wm.length) (hl1 : 1 < wm.length)
    (h1 : (collapseCopy D fl wm init).1.length = wm.length)
    (h2 : (collapseCopy D fl wm init).2.length = wm.length)
    (hf : Formed m (collapseCopy D fl wm init).1)
    (hi : ∀ r ∈ (collapseCopy D fl wm init).2.drop (max m 1), NilRow r)
    (hs : VolSized B ((collapseCopy D fl wm init).1.map Row.vol)) (hB : B ≤ 8) (hn : (M : ℚ) * err ≤ 1) :
    Sat (fun _ => True) (fun r => r.2.length = wm.length ∧ (∃ m' ≤ M, Formed m' r.2) ∧
        VolSized (B + M * err) (r.2.map Row.vol) ∧ Fl fl r.2)
      (finishCapture D fl ops.trapped ops.tweak nFree nInit wm init) := by
  have hmM : (m : ℚ) * err ≤ M * err := mul_le_mul_of_nonneg_right (by exact_mod_cast hM) err_pos.le
  have hm0 : 0 ≤ (m : ℚ) * err := mul_nonneg (Nat.cast_nonneg _) err_pos.le
  unfold finishCapture
  generalize collapseCopy D fl wm init = w at h1 h2 hf hi hs hg
  obtain ⟨w, i⟩ := w
  simp only at h1 h2 hf hi hs hg ⊢
  split
  · exact ⟨h1, ⟨m, hM, hf⟩, hs.mono (by linarith), hg⟩
  · cases pyDiv D nFree (D.sub (ops.trapped w) nInit) with
    | error e => trivial
    | ok e =>
      simp only [bind, Except.bind]
      split
      · rcases hops with ⟨hone, htw⟩ | ⟨-, htw⟩
        swap
        · obtain ⟨x, hx⟩ := htw w i e
          rw [hx]
          trivial
        rw [hone] at hfl
        subst hfl
        rw [htw]
        have hne := notEnough_formed hf (h2.trans h1.symm) hi e
        have hlen : (notEnough D w i e).length = w.length := by
          unfold notEnough
          rw [List.length_zipWith, h1, h2, min_self]
        have hv := notEnough_vols (A := D) w i e (h2.trans h1.symm)
        obtain ⟨m', hm', hf', hs'⟩ := collapse_formed hne (by rw [hlen, h1]; omega) (by rw [hlen, h1]; omega) (Or.inl rfl)
          (B := B) (by rw [hv]; exact hs) hB (by linarith)
        change (collapse D B64.one (notEnough D w i e)).length = wm.length ∧ (∃ m' ≤ M, Formed m' _) ∧ _
        exact ⟨by rw [collapse_length64, hlen, h1], ⟨m', by omega, hf'⟩, hs'.mono (by linarith), Or.inl rfl⟩
      · obtain ⟨m', hm', hf', hs'⟩ := collapse_formed hf (by rw [h1]; omega) (by rw [h1]; omega) hg hs hB (by linarith)
        exact ⟨by rw [collapse_length64]; exact h1, ⟨m', by omega, hf'⟩, hs'.mono (by linarith), hg.collapse⟩

/-- The collapse of an array with positive rows above the filled ones. -/
theorem collapseCopy_shape [NeZero s] {m j : ℕ} {B : ℚ} {fl : B64} {wm init : WM B64 s} (hm : m < wm.length) (hl : init.length = wm.length)
    (hm1 : 1 ≤ m) (hj1 : 1 ≤ j)
    (hz : ∀ r ∈ wm.drop m, Val r.vol 0) (hn : ∀ r ∈ wm.drop m, NilRow r) (hi : ∀ r ∈ init.drop m, NilRow r)
    (hk : (j ≤ indexNotFilled D fl wm ∧ indexNotFilled D fl wm ≤ m) ∨
      (indexNotFilled D fl wm = 0 ∧ ∀ r ∈ wm.take m, Pos r.vol))
    (hsum : ∀ k, j ≤ k → k ≤ m → Pos (volumeFilled D k wm)) (hp : ∀ r ∈ (wm.take m).drop j, Pos r.vol)
    (hs : VolSized B (wm.map Row.vol)) (hb : ∀ i ≤ m, |vsum ((wm.map Row.vol).take i)| ≤ 8) (hme : (m : ℚ) * err ≤ 1) :
    (collapseCopy D fl wm init).1.length = wm.length ∧ (collapseCopy D fl wm init).2.length = wm.length ∧
      VolSized (B + m * err) ((collapseCopy D fl wm init).1.map Row.vol) ∧
      ∃ m' ≤ m, 1 ≤ m' ∧ Formed m' (collapseCopy D fl wm init).1 ∧
        ∀ r ∈ (collapseCopy D fl wm init).2.drop m', NilRow r := by
  have hm0 : 0 ≤ (m : ℚ) * err := mul_nonneg (Nat.cast_nonneg _) err_pos.le
  unfold collapseCopy
  simp only
  generalize indexNotFilled D fl wm = k at hk
  rcases hk with ⟨hb1, hb2⟩ | ⟨rfl, hall⟩
  swap
  · rw [if_pos (by omega)]
    exact ⟨rfl, hl, hs.mono (by linarith), m, le_rfl, hm1, ⟨hm.le, hall, hz, by rw [max_eq_left hm1]; exact hn⟩, hi⟩
  split
  · rename_i hk
    have hj' : j = 1 := by omega
    subst hj'
    have hk' : k = 1 := by omega
    have h1 := hsum 1 le_rfl hm1
    obtain ⟨r0, l, rfl⟩ := List.exists_cons_of_ne_nil (l := wm) (by intro e; rw [e] at hm; simp at hm)
    refine ⟨rfl, hl, hs.mono (by linarith), m, le_rfl, hm1, ⟨hm.le, ?_, hz, by rw [max_eq_left hm1]; exact hn⟩, hi⟩
    obtain ⟨m, rfl⟩ : ∃ q, m = q + 1 := ⟨m - 1, by omega⟩
    rw [List.take_succ_cons] at hp ⊢
    intro r hr
    rcases List.mem_cons.1 hr with rfl | hr
    · exact h1
    · exact hp r (by simpa using hr)
  · rename_i hk
    refine ⟨collapseRows_length (by omega), (collapseRows_length (by omega)).trans hl,
      hs.collapseRows (by omega) hb2 hm hb hme, m + 1 - k, by omega, by omega,
      collapse_shape (by omega) hb2 hm (hsum k hb1 hb2) (fun r hr => hp r ?_) hz hn,
      collapse_nil (by omega) hb2 (by omega) hi⟩
    have : (wm.take m).drop k = ((wm.take m).drop j).drop (k - j) := by
      rw [List.drop_drop]; congr 1; omega
    rw [this] at hr
    exact List.mem_of_mem_drop hr

end Arctic.Fp
