import Verif.Model.PairwiseSum
import Verif.Lemmas.FloatSum

/-!
# Sums of doubles in any order
-/

set_option linter.unusedSectionVars false
set_option linter.unusedVariables false

namespace Arctic

namespace B64

theorem added_foldl {l' : List B64} : ∀ {l : List B64} {a : B64}, Added l a → Added (l ++ l') (l'.foldl B64.add a) := by
  induction l' with
  | nil => intro l a h; simpa using h
  | cons x l' ih =>
    intro l a h
    have := ih (h.add (.one x))
    rwa [List.append_assoc] at this

instance : AnyOrder sumLeft where
  added l := by
    cases l with
    | nil => exact .zero
    | cons a l => exact added_foldl (l := [a]) (.one a)

theorem eight {P : List B64 → B64 → Prop} {L : List (List B64)} {r0 r1 r2 r3 r4 r5 r6 r7 : B64}
    (h : List.Forall₂ P L [r0, r1, r2, r3, r4, r5, r6, r7]) : ∃ l0 l1 l2 l3 l4 l5 l6 l7, L = [l0, l1, l2, l3, l4, l5, l6, l7] ∧
      P l0 r0 ∧ P l1 r1 ∧ P l2 r2 ∧ P l3 r3 ∧ P l4 r4 ∧ P l5 r5 ∧ P l6 r6 ∧ P l7 r7 := by
  rcases h with - | ⟨h0, - | ⟨h1, - | ⟨h2, - | ⟨h3, - | ⟨h4, - | ⟨h5, - | ⟨h6, - | ⟨h7, - | -⟩⟩⟩⟩⟩⟩⟩⟩
  exact ⟨_, _, _, _, _, _, _, _, rfl, h0, h1, h2, h3, h4, h5, h6, h7⟩

theorem added_lanes (n : ℕ) : ∀ (l : List B64), l.length ≤ n → ∀ (r : List B64) (L : List (List B64)), r.length = 8 →
    List.Forall₂ Added L r → ∃ a, lanes r l = [a] ∧ Added (L.flatten ++ l) a := by
  induction n with
  | zero =>
    intro l hl r L hr h
    have : l = [] := List.length_eq_zero_iff.1 (by omega)
    subst this
    match r, hr with
    | [r0, r1, r2, r3, r4, r5, r6, r7], _ =>
      obtain ⟨l0, l1, l2, l3, l4, l5, l6, l7, rfl, h0, h1, h2, h3, h4, h5, h6, h7⟩ := eight h
      exact ⟨_, rfl, by simpa using ((h0.add h1).add (h2.add h3)).add ((h4.add h5).add (h6.add h7))⟩
  | succ n ih =>
    intro l hl r L hr h
    match r, hr with
    | [r0, r1, r2, r3, r4, r5, r6, r7], _ =>
      obtain ⟨l0, l1, l2, l3, l4, l5, l6, l7, rfl, h0, h1, h2, h3, h4, h5, h6, h7⟩ := eight h
      have base : Added ([l0, l1, l2, l3, l4, l5, l6, l7].flatten)
          (B64.add (B64.add (B64.add r0 r1) (B64.add r2 r3)) (B64.add (B64.add r4 r5) (B64.add r6 r7))) := by
        simpa using ((h0.add h1).add (h2.add h3)).add ((h4.add h5).add (h6.add h7))
      match l, hl with
      | a :: b :: c :: d :: e :: f :: g :: h :: l, hl =>
        obtain ⟨x, e1, e2⟩ := ih l (by simp at hl; omega) [B64.add r0 a, B64.add r1 b, B64.add r2 c, B64.add r3 d, B64.add r4 e,
          B64.add r5 f, B64.add r6 g, B64.add r7 h]
          [l0 ++ [a], l1 ++ [b], l2 ++ [c], l3 ++ [d], l4 ++ [e], l5 ++ [f], l6 ++ [g], l7 ++ [h]] rfl
          (.cons (h0.add (.one _)) (.cons (h1.add (.one _)) (.cons (h2.add (.one _)) (.cons (h3.add (.one _))
            (.cons (h4.add (.one _)) (.cons (h5.add (.one _)) (.cons (h6.add (.one _)) (.cons (h7.add (.one _)) .nil))))))))
        refine ⟨x, by rw [← e1]; rfl, .perm ?_ e2⟩
        classical
        refine List.perm_iff_count.2 fun z => ?_
        simp only [List.flatten_cons, List.flatten_nil, List.append_nil, List.count_append, List.count_cons, List.count_nil]
        omega
      | [], _ => exact ⟨_, rfl, added_foldl base⟩
      | [_], _ => exact ⟨_, rfl, added_foldl base⟩
      | [_, _], _ => exact ⟨_, rfl, added_foldl base⟩
      | [_, _, _], _ => exact ⟨_, rfl, added_foldl base⟩
      | [_, _, _, _], _ => exact ⟨_, rfl, added_foldl base⟩
      | [_, _, _, _, _], _ => exact ⟨_, rfl, added_foldl base⟩
      | [_, _, _, _, _, _], _ => exact ⟨_, rfl, added_foldl base⟩
      | [_, _, _, _, _, _, _], _ => exact ⟨_, rfl, added_foldl base⟩

theorem added_block (l : List B64) : Added l (sumBlock l) := by
  unfold sumBlock
  split
  · exact added_foldl (l := []) .zero
  · obtain ⟨a, e1, e2⟩ := added_lanes l.length (l.drop 8) (by simp) (l.take 8) ((l.take 8).map fun x => [x])
      (by rw [List.length_take]; omega) (by
        induction l.take 8 with
        | nil => exact .nil
        | cons x l ih => exact .cons (.one x) ih)
    rw [e1]
    have : ((l.take 8).map fun x => [x]).flatten = l.take 8 := by
      induction l.take 8 with
      | nil => rfl
      | cons x l ih => rw [List.map_cons, List.flatten_cons, ih]; rfl
    rwa [this, List.take_append_drop] at e2

/-- The order of numpy is an order. -/
instance : AnyOrder sumPairwise where
  added l := by
    induction h : l.length using Nat.strong_induction_on generalizing l with
    | _ n ih =>
      unfold sumPairwise
      split
      · exact added_block l
      · have := (ih _ (by rw [← h, List.length_take]; omega) (l.take (l.length / 2 - l.length / 2 % 8)) rfl).add
          (ih _ (by rw [← h, List.length_drop]; omega) (l.drop (l.length / 2 - l.length / 2 % 8)) rfl)
        rwa [List.take_append_drop] at this

end B64

namespace Fp

open B64

/-- The sum of the absolute values. -/
def asum (l : List B64) : ℚ := (l.map fun v => |v.val|).sum

theorem asum_nil : asum [] = 0 := rfl
theorem asum_cons (a : B64) (l : List B64) : asum (a :: l) = |a.val| + asum l := by simp [asum]
theorem asum_append (l l' : List B64) : asum (l ++ l') = asum l + asum l' := by simp [asum]
theorem asum_perm {l l' : List B64} (h : l.Perm l') : asum l = asum l' := (h.map _).sum_eq
theorem vsum_perm {l l' : List B64} (h : l.Perm l') : vsum l = vsum l' := (h.map _).sum_eq

theorem asum_nonneg (l : List B64) : 0 ≤ asum l := by
  induction l with
  | nil => exact le_rfl
  | cons a l ih => rw [asum_cons]; exact add_nonneg (abs_nonneg _) ih

theorem abs_vsum (l : List B64) : |vsum l| ≤ asum l := by
  induction l with
  | nil => simp [vsum_nil, asum_nil]
  | cons a l ih => rw [vsum_cons, asum_cons]; exact (abs_add_le _ _).trans (by linarith)

theorem asum_of_nonneg {l : List B64} (h : ∀ v ∈ l, ∃ q, Val v q ∧ 0 ≤ q) : asum l = vsum l := by
  induction l with
  | nil => rfl
  | cons a l ih =>
    obtain ⟨q, hq, q0⟩ := h a List.mem_cons_self
    rw [asum_cons, vsum_cons, ih fun v hv => h v (List.mem_cons_of_mem _ hv), hq.val, abs_of_nonneg q0]

/-- The number of numbers that are not zero. -/
def nonzero (l : List B64) : ℕ := l.countP fun v => decide (v.val ≠ 0)

theorem vsum_of_nonzero {l : List B64} (h : nonzero l = 0) : vsum l = 0 := by
  induction l with
  | nil => rfl
  | cons a l ih =>
    unfold nonzero at h ih
    rw [List.countP_cons] at h
    have ha : a.val = 0 := by
      by_contra hc
      rw [if_pos (by simpa using hc)] at h
      omega
    rw [vsum_cons, ha, ih (by omega), add_zero]

/-- The error of a sum in any order: at most one rounding for every number but one that is not zero. -/
theorem added_err {l : List B64} {a : B64} (h : Added l a) : (∀ v ∈ l, ∃ q, Val v q) → asum l ≤ 8 →
    (nonzero l : ℚ) * err ≤ 1 → ∃ c, Val a c ∧ |c - vsum l| ≤ (nonzero l - 1 : ℕ) * err := by
  have he := err_pos
  induction h with
  | zero => intro _ _ _; exact ⟨0, val_zero, by simp [vsum_nil, nonzero]⟩
  | negZero => intro _ _ _; exact ⟨0, rfl, by simp [vsum_nil, nonzero]⟩
  | one x =>
    intro hv _ _
    obtain ⟨q, hq⟩ := hv x List.mem_cons_self
    refine ⟨q, hq, ?_⟩
    rw [vsum_cons, vsum_nil, hq.val, add_zero, sub_self, abs_zero]
    exact mul_nonneg (Nat.cast_nonneg _) he.le
  | @perm l l' a hp _ ih =>
    intro hv hs hn
    have e : nonzero l = nonzero l' := hp.countP_eq _
    rw [← vsum_perm hp, ← e]
    exact ih (fun v h => hv v (hp.mem_iff.1 h)) (by rw [asum_perm hp]; exact hs) (by rw [e]; exact hn)
  | @add l l' a b ha hb iha ihb =>
    intro hv hs hn
    have hnn : nonzero (l ++ l') = nonzero l + nonzero l' := List.countP_append
    rw [hnn] at hn ⊢
    rw [asum_append] at hs
    have s0 := asum_nonneg l
    have s0' := asum_nonneg l'
    have k0 : (0 : ℚ) ≤ nonzero l * err := mul_nonneg (Nat.cast_nonneg _) he.le
    have k0' : (0 : ℚ) ≤ nonzero l' * err := mul_nonneg (Nat.cast_nonneg _) he.le
    push_cast at hn
    rw [add_mul] at hn
    obtain ⟨p, hp, hpe⟩ := iha (fun v h => hv v (List.mem_append_left _ h)) (by linarith) (by linarith)
    obtain ⟨q, hq, hqe⟩ := ihb (fun v h => hv v (List.mem_append_right _ h)) (by linarith) (by linarith)
    rw [vsum_append]
    by_cases hl : nonzero l = 0
    · rw [hl, Nat.zero_sub, Nat.cast_zero, zero_mul, vsum_of_nonzero hl, sub_zero] at hpe
      have hp0 : p = 0 := abs_eq_zero.1 (le_antisymm hpe (abs_nonneg _))
      subst hp0
      have := val_add hp hq (by rw [zero_add, hq.rep.1]; exact hq.rep.2)
      rw [zero_add, hq.rep.1] at this
      exact ⟨q, this, by rw [hl, vsum_of_nonzero hl, Nat.zero_add, zero_add]; exact hqe⟩
    by_cases hl' : nonzero l' = 0
    · rw [hl', Nat.zero_sub, Nat.cast_zero, zero_mul, vsum_of_nonzero hl', sub_zero] at hqe
      have hq0 : q = 0 := abs_eq_zero.1 (le_antisymm hqe (abs_nonneg _))
      subst hq0
      have := val_add hp hq (by rw [add_zero, hp.rep.1]; exact hp.rep.2)
      rw [add_zero, hp.rep.1] at this
      exact ⟨p, this, by rw [hl', vsum_of_nonzero hl', Nat.add_zero, add_zero]; exact hpe⟩
    have e1 : ((nonzero l - 1 : ℕ) : ℚ) = nonzero l - 1 := by rw [Nat.cast_sub (by omega), Nat.cast_one]
    have e2 : ((nonzero l' - 1 : ℕ) : ℚ) = nonzero l' - 1 := by rw [Nat.cast_sub (by omega), Nat.cast_one]
    have e3 : ((nonzero l + nonzero l' - 1 : ℕ) : ℚ) = nonzero l + nonzero l' - 1 := by
      rw [Nat.cast_sub (by omega), Nat.cast_one, Nat.cast_add]
    rw [e1] at hpe
    rw [e2] at hqe
    have h1 := abs_vsum l
    have h2 := abs_vsum l'
    rw [abs_le] at hpe hqe h1 h2
    obtain ⟨r1, r2⟩ := round_err16 (q := p + q) (by rw [abs_le]; constructor <;> linarith)
    refine ⟨_, val_add hp hq r2, ?_⟩
    rw [e3]
    rw [abs_le] at r1 ⊢
    constructor <;> linarith

/-- The error of `np.sum`, whatever its order. -/
theorem sum_near {sum : List B64 → B64} [AnyOrder sum] {l : List B64} (hv : ∀ v ∈ l, ∃ q, Val v q) (hs : asum l ≤ 8) {k : ℕ}
    (hk : nonzero l ≤ k) (hn : (k : ℚ) * err ≤ 1) : ∃ c, Val (sum l) c ∧ |c - vsum l| ≤ k * err := by
  have he := err_pos
  obtain ⟨c, hc, hce⟩ := added_err (AnyOrder.added (sum := sum) l) hv hs
    (le_trans (mul_le_mul_of_nonneg_right (by exact_mod_cast hk) he.le) hn)
  exact ⟨c, hc, hce.trans (mul_le_mul_of_nonneg_right (by exact_mod_cast (by omega : nonzero l - 1 ≤ k)) he.le)⟩

theorem nonzero_le (l : List B64) : nonzero l ≤ l.length := List.countP_le_length

theorem nonzero_append (l l' : List B64) : nonzero (l ++ l') = nonzero l + nonzero l' := List.countP_append

theorem nonzero_zeros {l : List B64} (h : ∀ v ∈ l, Val v 0) : nonzero l = 0 := by
  unfold nonzero
  rw [List.countP_eq_zero]
  intro v hv
  simp [(h v hv).val]

end Fp
end Arctic
