import Verif.Model.Float
import Verif.Lemmas.Binary64Order

/-!
# Errors of sums in double precision
-/

set_option linter.unusedSectionVars false
set_option linter.unusedVariables false

namespace Arctic.Fp

open B64

/-- Allowance for one rounding of a number up to 16. -/
def err : ℚ := 2 ^ (-48 : ℤ)

theorem err_pos : 0 < err := by unfold err; positivity

theorem round_err16 {q : ℚ} (h : |q| ≤ 16) : |B64.round q - q| ≤ err ∧ |B64.round q| < limit := by
  have h1 := round_error q
  have e1 : (2 : ℚ) ^ (-53 : ℤ) = 1 / 9007199254740992 := by norm_num
  have e2 : (2 : ℚ) ^ (-1075 : ℤ) ≤ 2 ^ (-53 : ℤ) := zpow_le_zpow_right₀ (by norm_num) (by norm_num)
  have e3 : err = 1 / 281474976710656 := by unfold err; norm_num
  refine ⟨?_, round_bound (h.trans ?_)⟩
  · rw [e1] at h1 e2
    rw [e3]
    nlinarith [abs_nonneg q]
  · have h4 : (2 : ℚ) ^ 4 ≤ 2 ^ 1000 := pow_le_pow_right₀ (by norm_num) (by norm_num)
    have h16 : (16 : ℚ) = 2 ^ 4 := by norm_num
    rw [h16]
    exact h4

/-- The exact sum of doubles. -/
def vsum (l : List B64) : ℚ := (l.map B64.val).sum

theorem vsum_nil : vsum [] = 0 := rfl
theorem vsum_cons (a : B64) (l : List B64) : vsum (a :: l) = a.val + vsum l := by simp [vsum]
theorem vsum_append (l l' : List B64) : vsum (l ++ l') = vsum l + vsum l' := by simp [vsum]

/-- The error of a running sum. -/
theorem foldl_err (l : List B64) (hl : ∀ v ∈ l, ∃ q, Val v q) : ∀ (t : B64) (a : ℚ) (n : ℕ) (e : ℚ), Val t a →
    |a - e| ≤ n * err → (∀ i ≤ l.length, |e + vsum (l.take i)| ≤ 8) → (n + l.length : ℕ) * err ≤ 1 →
    ∃ c, Val (l.foldl B64.add t) c ∧ |c - (e + vsum l)| ≤ (n + l.length : ℕ) * err := by
  induction l with
  | nil =>
    intro t a n e ht ha _ _
    refine ⟨a, ht, ?_⟩
    rw [vsum_nil, add_zero]
    simpa using ha
  | cons v l ih =>
    intro t a n e ht ha hb hn
    obtain ⟨q, hq⟩ := hl v List.mem_cons_self
    have hv := hq.val
    have h1 := hb 1 (by simp)
    rw [List.take_succ_cons, List.take_zero, vsum_cons, vsum_nil, add_zero, hv] at h1
    have hep := err_pos
    rw [List.length_cons] at hn
    have hn1 : (n : ℚ) * err ≤ 1 := by
      refine le_trans ?_ hn
      push_cast
      have : (0 : ℚ) ≤ l.length := Nat.cast_nonneg _
      nlinarith
    rw [abs_le] at ha h1
    have h16 : |a + q| ≤ 16 := by rw [abs_le]; constructor <;> linarith
    obtain ⟨r1, r2⟩ := round_err16 h16
    rw [abs_le] at r1
    obtain ⟨c, hc, hce⟩ := ih (fun u hu => hl u (List.mem_cons_of_mem _ hu)) (B64.add t v) (B64.round (a + q)) (n + 1) (e + q)
      (val_add ht hq r2) (by rw [abs_le]; push_cast; constructor <;> linarith)
      (fun i hi => by
        have := hb (i + 1) (by simpa using hi)
        rw [List.take_succ_cons, vsum_cons, hv] at this
        rwa [add_assoc])
      (by rw [show n + 1 + l.length = n + (l.length + 1) by omega]; exact hn)
    refine ⟨c, hc, ?_⟩
    rw [vsum_cons, hv, List.length_cons, show n + (l.length + 1) = n + 1 + l.length by omega, ← add_assoc]
    exact hce

theorem sumLeft_err (l : List B64) (hl : ∀ v ∈ l, ∃ q, Val v q) (hb : ∀ i ≤ l.length, |vsum (l.take i)| ≤ 8)
    (hn : (l.length : ℚ) * err ≤ 1) : ∃ c, Val (B64.sumLeft l) c ∧ |c - vsum l| ≤ l.length * err := by
  cases l with
  | nil => exact ⟨0, val_zero, by simp [vsum_nil]⟩
  | cons a l =>
    obtain ⟨q, hq⟩ := hl a List.mem_cons_self
    have hep := err_pos
    rw [List.length_cons] at hn
    push_cast at hn
    have h2 : (l.length : ℚ) * err ≤ 1 := by linarith
    obtain ⟨c, hc, hce⟩ := foldl_err l (fun u hu => hl u (List.mem_cons_of_mem _ hu)) a q 0 q hq (by simp)
      (fun i hi => by
        have := hb (i + 1) (by simpa using hi)
        rwa [List.take_succ_cons, vsum_cons, hq.val] at this)
      (by simpa using h2)
    refine ⟨c, hc, ?_⟩
    rw [vsum_cons, hq.val]
    rw [Nat.zero_add] at hce
    refine hce.trans ?_
    rw [List.length_cons]
    push_cast
    linarith

theorem total_err (l : List B64) (hl : ∀ v ∈ l, ∃ q, Val v q) (hb : ∀ i ≤ l.length, |vsum (l.take i)| ≤ 8)
    (hn : (l.length : ℚ) * err ≤ 1) : ∃ c, Val (l.foldl B64.add B64.zero) c ∧ |c - vsum l| ≤ l.length * err := by
  obtain ⟨c, hc, hce⟩ := foldl_err l hl B64.zero 0 0 0 val_zero (by simp) (fun i hi => by rw [zero_add]; exact hb i hi)
    (by simpa using hn)
  exact ⟨c, hc, by simpa using hce⟩

/-- All volumes are finite, and their exact sum is at most `B`. -/
def VolSized (B : ℚ) (l : List B64) : Prop := (∀ v ∈ l, ∃ q, Val v q) ∧ vsum l ≤ B

theorem VolSized.mono {B B' : ℚ} {l : List B64} (h : VolSized B l) (hB : B ≤ B') : VolSized B' l := ⟨h.1, h.2.trans hB⟩

theorem vsum_replicate_zero (n : ℕ) : vsum (List.replicate n B64.zero) = 0 := by
  induction n with
  | zero => rfl
  | succ n ih => rw [List.replicate_succ, vsum_cons, ih, val_zero.val, add_zero]

/-- Collapsing the first `k` rows adds at most `k` roundings. -/
theorem VolSized.collapse {B : ℚ} {l : List B64} {k : ℕ} (h : VolSized B l) (hk : k ≤ l.length)
    (hb : ∀ i ≤ k, |vsum (l.take i)| ≤ 8) (hn : (k : ℚ) * err ≤ 1) (n : ℕ) :
    VolSized (B + k * err) (B64.sumLeft (l.take k) :: l.drop k ++ List.replicate n B64.zero) := by
  have hlen : (l.take k).length = k := by rw [List.length_take]; omega
  obtain ⟨c, hc, hce⟩ := sumLeft_err (l.take k) (fun v hv => h.1 v (List.mem_of_mem_take hv))
    (fun i hi => by rw [List.take_take, min_eq_left (by omega)]; exact hb i (by omega)) (by rw [hlen]; exact hn)
  refine ⟨?_, ?_⟩
  · intro v hv
    rw [List.cons_append] at hv
    rcases List.mem_cons.1 hv with rfl | hv
    · exact ⟨c, hc⟩
    · rcases List.mem_append.1 hv with hv | hv
      · exact h.1 v (List.mem_of_mem_drop hv)
      · rw [List.eq_of_mem_replicate hv]; exact ⟨0, val_zero⟩
  · rw [List.cons_append, vsum_cons, vsum_append, vsum_replicate_zero, hc.val]
    have h2 := h.2
    conv at h2 => rw [← List.take_append_drop k l]
    rw [vsum_append] at h2
    rw [hlen, abs_le] at hce
    linarith

theorem vsum_nonneg {l : List B64} (h : ∀ v ∈ l, ∃ q, Val v q ∧ 0 ≤ q) : 0 ≤ vsum l := by
  induction l with
  | nil => rfl
  | cons a l ih =>
    obtain ⟨q, hq, q0⟩ := h a List.mem_cons_self
    rw [vsum_cons, hq.val]
    have := ih fun v hv => h v (List.mem_cons_of_mem _ hv)
    linarith

/-- For volumes that are not negative all partial sums are at most the bound. -/
theorem VolSized.partial {B : ℚ} {l : List B64} (h : VolSized B l) (hp : ∀ v ∈ l, ∃ q, Val v q ∧ 0 ≤ q) (i : ℕ) :
    0 ≤ vsum (l.take i) ∧ vsum (l.take i) ≤ B := by
  refine ⟨vsum_nonneg fun v hv => hp v (List.mem_of_mem_take hv), ?_⟩
  have h2 := h.2
  conv at h2 => rw [← List.take_append_drop i l]
  rw [vsum_append] at h2
  have := vsum_nonneg (l := l.drop i) fun v hv => hp v (List.mem_of_mem_drop hv)
  linarith

theorem vsum_sublist {l l' : List B64} (hs : l'.Sublist l) (h : ∀ v ∈ l, ∃ q, Val v q ∧ 0 ≤ q) : vsum l' ≤ vsum l := by
  induction hs with
  | slnil => exact le_rfl
  | cons a hs ih =>
    obtain ⟨q, hq, q0⟩ := h a List.mem_cons_self
    rw [vsum_cons, hq.val]
    have := ih fun v hv => h v (List.mem_cons_of_mem _ hv)
    linarith
  | cons_cons a hs ih =>
    rw [vsum_cons, vsum_cons]
    have := ih fun v hv => h v (List.mem_cons_of_mem _ hv)
    linarith

theorem err_le_one : err ≤ 1 := by unfold err; norm_num

/-- Splitting a volume into two parts, the lower possibly a little below zero. -/
theorem split_sized {P R : List B64} {v new up : B64} {B n q u : ℚ} (hs : VolSized B (P ++ v :: R))
    (hp : ∀ w ∈ P ++ v :: R, ∃ q, Val w q ∧ 0 ≤ q) (hq : Val v q) (hn : Val new n) (hu : Val up u) (hn3 : -3 ≤ n)
    (hnq : n < q) (he : |u - (q - n)| ≤ err) (hB : B ≤ 3) :
    VolSized (B + err) (P ++ new :: up :: R.dropLast) ∧ ∀ i, |vsum ((P ++ new :: up :: R.dropLast).take i)| ≤ 8 := by
  have hpP : ∀ w ∈ P, ∃ q, Val w q ∧ 0 ≤ q := fun w hw => hp w (by simp [hw])
  have hpR : ∀ w ∈ R, ∃ q, Val w q ∧ 0 ≤ q := fun w hw => hp w (by simp [hw])
  have hpR' : ∀ w ∈ R.dropLast, ∃ q, Val w q ∧ 0 ≤ q := fun w hw => hpR w (List.mem_of_mem_dropLast hw)
  have hS := hs.2
  rw [vsum_append, vsum_cons, hq.val] at hS
  have hR := vsum_sublist (List.dropLast_sublist R) hpR
  have hP0 := vsum_nonneg hpP
  have hR0 := vsum_nonneg hpR
  have h1 := err_le_one
  have hep := err_pos
  rw [abs_le] at he
  refine ⟨⟨?_, ?_⟩, ?_⟩
  · intro w hw
    rcases List.mem_append.1 hw with hw | hw
    · obtain ⟨a, ha, -⟩ := hpP w hw; exact ⟨a, ha⟩
    · rcases List.mem_cons.1 hw with rfl | hw
      · exact ⟨n, hn⟩
      · rcases List.mem_cons.1 hw with rfl | hw
        · exact ⟨u, hu⟩
        · obtain ⟨a, ha, -⟩ := hpR' w hw; exact ⟨a, ha⟩
  · rw [vsum_append, vsum_cons, vsum_cons, hn.val, hu.val]
    linarith
  · intro i
    have a0 := vsum_nonneg (l := P.take i) fun w hw => hpP w (List.mem_of_mem_take hw)
    have a1 := vsum_sublist (List.take_sublist i P) hpP
    rw [List.take_append, vsum_append]
    rcases Nat.lt_or_ge (i - P.length) 2 with h2 | h2
    · rcases Nat.lt_or_ge (i - P.length) 1 with h3 | h3
      · rw [show i - P.length = 0 by omega, List.take_zero, vsum_nil, abs_le]
        have q0 : 0 ≤ q := by
          obtain ⟨a, ha, a0⟩ := hp v (by simp)
          rw [hq.unique ha]; exact a0
        constructor <;> linarith
      · rw [show i - P.length = 1 by omega, List.take_succ_cons, List.take_zero, vsum_cons, vsum_nil, hn.val, abs_le]
        constructor <;> linarith
    · obtain ⟨k, hk⟩ : ∃ k, i - P.length = k + 2 := ⟨i - P.length - 2, by omega⟩
      rw [hk, List.take_succ_cons, List.take_succ_cons, vsum_cons, vsum_cons, hn.val, hu.val, abs_le]
      have b0 := vsum_nonneg (l := R.dropLast.take k) fun w hw => hpR' w (List.mem_of_mem_take hw)
      have b1 := vsum_sublist (List.take_sublist k R.dropLast) hpR'
      have q0 : 0 ≤ q := by
        obtain ⟨a, ha, a0⟩ := hp v (by simp)
        rw [hq.unique ha]; exact a0
      constructor <;> linarith

theorem vsum_set {l : List B64} {m : ℕ} {z v : B64} (h : l[m]? = some z) (hz : Val z 0) :
    vsum (l.set m v) = vsum l + v.val := by
  induction l generalizing m with
  | nil => simp at h
  | cons a l ih =>
    cases m with
    | zero =>
      rw [List.getElem?_cons_zero] at h
      rw [List.set_cons_zero, vsum_cons, vsum_cons, Option.some.inj h, hz.val]
      ring
    | succ m =>
      rw [List.getElem?_cons_succ] at h
      rw [List.set_cons_succ, vsum_cons, vsum_cons, ih h]
      ring

theorem vsum_zeros {l : List B64} (h : ∀ v ∈ l, Val v 0) : vsum l = 0 := by
  induction l with
  | nil => rfl
  | cons a l ih =>
    rw [vsum_cons, (h a List.mem_cons_self).val, ih fun v hv => h v (List.mem_cons_of_mem _ hv), add_zero]

theorem foldl_zeros {l : List B64} (h : ∀ v ∈ l, Val v 0) : ∀ {t : B64} {a : ℚ}, Val t a → Val (l.foldl B64.add t) a := by
  induction l with
  | nil => intro t a ht; exact ht
  | cons v l ih =>
    intro t a ht
    have := val_add ht (h v List.mem_cons_self) (by rw [add_zero, ht.rep.1]; exact ht.rep.2)
    rw [add_zero, ht.rep.1] at this
    exact ih (fun u hu => h u (List.mem_cons_of_mem _ hu)) this

end Arctic.Fp
