import Verif.Lemmas.Binary64

/-!
# The well filling function in double precision
-/

set_option linter.unusedSectionVars false
set_option linter.unusedVariables false
set_option linter.unusedSimpArgs false

namespace Arctic

namespace Fp

/-- `util.set_min_max(x, 0, 1)` (util.py:4-11). -/
def clip01 {F : Type} (A : Arith F) (x : F) : F :=
  if A.lt x A.zero then A.zero else if A.lt A.one x then A.one else x

/-- `well_filling_function` (ccd.py:248-263) for a phase with a non-zero range; `pow` is `**`. -/
def wellFill {F : Type} (A : Arith F) (pow : F → F → F) (empty full beta n : F) : F :=
  if A.eq n A.zero then A.zero
  else pow (clip01 A (A.div (A.sub n empty) (A.sub full empty))) beta

end Fp

namespace B64

theorem lt_zero_iff (x : B64) : lt zero x = true ↔ x = .inf false ∨ ∃ q h, x = .fin q h ∧ 0 < q := by
  cases x with
  | nan => simp [lt, zero, key]
  | inf s => cases s <;> simp [lt, zero, key]
  | negZero => simp [lt, zero, key]
  | fin q h =>
    simp [lt, zero, key]
    exact fun _ => h

theorem round_nonpos {q : ℚ} (h : q ≤ 0) : round q ≤ 0 := by
  unfold round
  split
  · exact le_rfl
  · rename_i h0
    have hl : q < 0 := lt_of_le_of_ne h h0
    rw [if_pos hl]
    have := roundPos_nonneg (q := -q) (by linarith)
    linarith

theorem pack_nonpos {q : ℚ} (h : q ≤ 0) : lt zero (pack q) = false := by
  rw [Bool.eq_false_iff]
  intro hc
  rw [lt_zero_iff] at hc
  unfold pack at hc
  split at hc
  · rcases hc with hc | ⟨_, _, hc, _⟩ <;> cases hc
  · rename_i h1
    split at hc
    · rcases hc with hc | ⟨p, hp, hc, h2⟩
      · cases hc
      · injection hc with hc
        have := round_nonpos h
        linarith
    · rename_i h3
      rcases hc with hc | ⟨_, _, hc, _⟩
      · injection hc with hc
        have h0 : q = 0 := le_antisymm h (not_lt.1 (of_decide_eq_false hc))
        subst h0
        exact h3 (by decide +kernel)
      · cases hc

theorem sub_nonpos {n e : B64} (hn : lt zero n = false) (he : le zero e = true) : lt zero (sub n e) = false := by
  rw [Bool.eq_false_iff] at hn ⊢
  intro hc
  have hn1 := mt (lt_zero_iff n).2 hn
  push Not at hn1
  obtain ⟨hn1, hn2⟩ := hn1
  have hk : e = .inf false ∨ e = .negZero ∨ ∃ q h, e = .fin q h ∧ 0 ≤ q := by
    cases e with
    | nan => simp [le, lt, eq, zero, key] at he
    | inf s => cases s <;> simp [le, lt, eq, zero, key] at he ⊢
    | negZero => simp
    | fin q h =>
      right; right
      refine ⟨q, h, rfl, ?_⟩
      simp only [le, lt, eq, zero, key, Bool.or_eq_true, decide_eq_true_eq, Prod.mk.injEq] at he
      rcases he with (he | he) | he
      · omega
      · exact he.2.le
      · exact he.2.le
  unfold sub at hc
  rcases hk with rfl | rfl | ⟨q, h, rfl, h0⟩
  · cases n with
    | nan => simp [neg, add, lt, zero, key] at hc
    | inf s => cases s <;> simp [neg, add, lt, zero, key] at hc hn1
    | negZero => simp [neg, add, lt, zero, key] at hc
    | fin p hp => simp [neg, add, lt, zero, key] at hc
  · cases n with
    | nan => simp [neg, add, lt, zero, key] at hc
    | inf s => cases s <;> simp [neg, add, lt, zero, key] at hc hn1
    | negZero => simp [neg, add, lt, zero, key] at hc
    | fin p hp =>
      have hp0 : p ≤ 0 := not_lt.1 fun h => by have := hn2 p hp rfl; linarith
      have := pack_nonpos (q := p + 0) (by linarith)
      change lt zero (pack (p + 0)) = true at hc
      rw [this] at hc; cases hc
  · by_cases hq : q = 0
    · subst hq
      have hneg : neg (.fin 0 h) = .negZero := by
        change (if (0 : ℚ) = 0 then B64.negZero else pack (-0)) = _
        rw [if_pos rfl]
      rw [hneg] at hc
      have : add n .negZero = n := by cases n <;> rfl
      rw [this] at hc
      exact hn hc
    · rw [neg_fin h hq] at hc
      cases n with
      | nan => simp [add, lt, zero, key] at hc
      | inf s => cases s <;> simp [add, lt, zero, key] at hc hn1
      | negZero =>
        have := (lt_zero_iff _).1 hc
        rcases this with h1 | ⟨p, hp, h1, h2⟩
        · cases h1
        · injection h1 with h1
          linarith
      | fin p hp =>
        have hp0 : p ≤ 0 := not_lt.1 fun h => by have := hn2 p hp rfl; linarith
        have := pack_nonpos (q := p + -q) (by linarith)
        change lt zero (pack (p + -q)) = true at hc
        rw [this] at hc; cases hc

theorem signedZero_nonpos (s : Bool) : lt zero (signedZero s) = false := by cases s <;> decide +kernel

theorem div_nonpos {a r : B64} (ha : lt zero a = false) (hr : lt zero r = true) : lt zero (div a r) = false := by
  have ha' := ha
  rw [Bool.eq_false_iff] at ha
  have hn1 := mt (lt_zero_iff a).2 ha
  push Not at hn1
  obtain ⟨hn1, hn2⟩ := hn1
  rcases (lt_zero_iff r).1 hr with rfl | ⟨q, h, rfl, h0⟩
  · cases a with
    | nan => rfl
    | inf s => rfl
    | negZero => exact signedZero_nonpos _
    | fin p hp => exact signedZero_nonpos _
  · cases a with
    | nan => rfl
    | inf s =>
      cases s with
      | false => exact absurd rfl hn1
      | true =>
        change lt zero (.inf (true != decide (q < 0))) = false
        rw [decide_eq_false (not_lt.2 h0.le)]
        rfl
    | negZero =>
      change lt zero (if q = 0 then _ else if (0 : ℚ) = 0 then signedZero _ else _) = false
      rw [if_neg h0.ne', if_pos rfl]
      exact signedZero_nonpos _
    | fin p hp =>
      have hp0 : p ≤ 0 := not_lt.1 fun h => by have := hn2 p hp rfl; linarith
      change lt zero (if q = 0 then _ else if p = 0 then signedZero _ else pack (p / q)) = false
      rw [if_neg h0.ne']
      split
      · exact signedZero_nonpos _
      · exact pack_nonpos (div_nonpos_of_nonpos_of_nonneg hp0 h0.le)

/-- A well without electrons is empty: the filling function of the code, for a notch that is not negative, a full well
above it and a power for which `0 ** beta` and `nan ** beta` are not positive. -/
theorem fillOk_wellFill (sum : List B64 → B64) (pow : B64 → B64 → B64) {empty full beta : B64}
    (he : le zero empty = true) (hf : lt zero (sub full empty) = true)
    (hp : ∀ x, lt x zero = false → lt zero x = false → lt zero (pow x beta) = false) :
    Fp.FillOk (arith sum) (Fp.wellFill (arith sum) pow empty full beta) := by
  intro n hn
  change lt zero n = false at hn
  change lt zero (if eq n zero then zero else pow (Fp.clip01 (arith sum) (div (sub n empty) (sub full empty))) beta) = false
  split
  · decide +kernel
  · have h1 := div_nonpos (sub_nonpos hn he) hf
    generalize div (sub n empty) (sub full empty) = x at h1
    change lt zero (pow (if lt x zero then zero else if lt one x then one else x) beta) = false
    cases h2 : lt x zero with
    | true =>
      rw [if_pos rfl]
      exact hp _ (by decide +kernel) (by decide +kernel)
    | false =>
      rw [if_neg (by simp)]
      have h3 : lt one x = false := by
        rw [Bool.eq_false_iff] at h1 ⊢
        intro hc
        refine h1 ?_
        rw [lt_zero_iff]
        cases x with
        | nan => simp [lt, one, key] at hc
        | inf s => cases s <;> simp [lt, one, key] at hc ⊢
        | negZero => simp [lt, one, key] at hc; norm_num at hc
        | fin q h =>
          simp [lt, one, key] at hc
          exact Or.inr ⟨q, h, rfl, by linarith⟩
      rw [h3, if_neg (by simp)]
      exact hp _ h2 h1

end B64
end Arctic
