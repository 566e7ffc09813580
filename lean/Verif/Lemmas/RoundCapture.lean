import Verif.Lemmas.RoundTidy
import Verif.Lemmas.FloatOrder

/-!
# Capture in double precision: the array afterwards, and the number of captured electrons
-/

set_option linter.unusedSectionVars false
set_option linter.unusedVariables false

namespace Arctic.Fp

open B64

variable {s : ℕ} {sum : List B64 → B64}

/-! ### finishing without a shortage -/

theorem lt_pack_one {q : ℚ} (h : 1 ≤ q) : B64.lt (pack q) B64.one = false := by
  have h1 := round_mono_rep' val_one.rep h
  unfold pack
  rw [if_neg (by rintro ⟨-, h2⟩; linarith)]
  split
  · rename_i hr
    rw [val_lt (show Val (B64.fin (B64.round q) hr) (B64.round q) from rfl) val_one]
    simpa using h1
  · have : decide (q < 0) = false := by simpa using (by linarith : (0 : ℚ) ≤ q)
    rw [this]
    rfl

theorem lt_zero_pack {q : ℚ} (h : q ≤ 0) : B64.lt B64.zero (pack q) = false := by
  have h1 := round_mono_rep rep_zero h
  unfold pack
  split
  · rfl
  · split
    · rename_i hr
      rw [val_lt val_zero (show Val (B64.fin (B64.round q) hr) (B64.round q) from rfl)]
      simpa using h1
    · rename_i h2 h3
      by_cases hq : q = 0
      · exfalso; subst hq; rw [round_zero] at h3; exact h3 rep_zero
      · have : decide (q < 0) = true := by simpa using lt_of_le_of_ne h hq
        rw [this]
        rfl

theorem div_val {x y : B64} {a d : ℚ} (hx : Val x a) (hy : Val y d) (ha : a ≠ 0) (hd : d ≠ 0) : B64.div x y = pack (a / d) := by
  rcases hx.cases with ⟨rfl, rfl⟩ | ⟨h1, rfl⟩
  · exact absurd rfl ha
  rcases hy.cases with ⟨rfl, rfl⟩ | ⟨h2, rfl⟩
  · exact absurd rfl hd
  change (if d = 0 then _ else if a = 0 then _ else pack (a / d)) = _
  rw [if_neg hd, if_neg ha]

/-- Enough electrons: nothing is reduced. -/
theorem enough_plain {nFree diff : B64} {a d : ℚ} (ha : Val nFree a) (a0 : 0 < a) (hd : Val diff d) (d0 : d ≠ 0) (hle : d ≤ a) :
    ¬ ((B64.arith sum).lt (B64.arith sum).zero ((B64.arith sum).div nFree diff) = true ∧ (B64.arith sum).lt ((B64.arith sum).div nFree diff) (B64.arith sum).one = true) := by
  have e : (B64.arith sum).div nFree diff = pack (a / d) := div_val ha hd a0.ne' d0
  rw [e]
  rintro ⟨h1, h2⟩
  rcases lt_or_gt_of_ne d0 with h | h
  · have := lt_zero_pack (q := a / d) (div_nonpos_of_nonneg_of_nonpos a0.le h.le)
    have h1' : B64.lt B64.zero (pack (a / d)) = true := h1
    rw [this] at h1'
    cases h1'
  · have := lt_pack_one (q := a / d) (by rw [le_div_iff₀ h]; linarith)
    have h2' : B64.lt (pack (a / d)) B64.one = true := h2
    rw [this] at h2'
    cases h2'

theorem collapse_id {wm : WM B64 s} (h : indexNotFilled (B64.arith sum) B64.one wm ≤ 1) : collapse (B64.arith sum) B64.one wm = wm := by
  unfold collapse
  simp only
  rw [if_pos h]

theorem finish_plain {w1 init w' : WM B64 s} {dens p : Fin s → B64} {nFree nInit : B64} {N a c0 c1 : ℚ}
    (hc : (collapseCopy (B64.arith sum) B64.one w1 init).1 = w') (hi : indexNotFilled (B64.arith sum) B64.one w' ≤ 1) (hN1 : 1 ≤ N) (hN2 : N ≤ big)
    (ha : Val nFree a) (a0 : 0 < a) (h0 : Val nInit c0) (h1 : Val (cyNTrapped (B64.arith sum) w' dens) c1) (hle : c1 - c0 ≤ a)
    (hb : |c1 - c0| ≤ 16 * N) :
    ∃ cap q, finishCapture (B64.arith sum) B64.one (instantOps (B64.arith sum) dens p).trapped (instantOps (B64.arith sum) dens p).tweak nFree nInit w1 init = .ok (cap, w') ∧
      Val cap q ∧ |q - (c1 - c0)| ≤ N * err := by
  obtain ⟨r1, r2⟩ := round_scale hN1 hN2 hb
  unfold finishCapture
  rw [← Prod.mk.eta (p := collapseCopy (B64.arith sum) B64.one w1 init), hc]
  simp only
  change ∃ cap q, (if (B64.arith sum).eq (cyNTrapped (B64.arith sum) w' dens) nInit = true then _ else _) = _ ∧ _
  have heq : (B64.arith sum).eq (cyNTrapped (B64.arith sum) w' dens) nInit = decide (c1 = c0) := val_eq h1 h0
  rw [heq]
  by_cases he : c1 = c0
  · refine ⟨B64.zero, 0, ?_, val_zero, ?_⟩
    · rw [if_pos (by simpa using he)]; rfl
    · rw [he, sub_self, sub_zero, abs_zero]
      exact mul_nonneg (by linarith) err_pos.le
  · rw [if_neg (by simpa using he)]
    have hv : Val ((B64.arith sum).sub (cyNTrapped (B64.arith sum) w' dens) nInit) (B64.round (c1 - c0)) := val_sub h1 h0 r2
    have hd0 : B64.round (c1 - c0) ≠ 0 := fun h => he (round_sub h1.rep h0.rep h)
    have hpy : pyDiv (B64.arith sum) nFree ((B64.arith sum).sub (cyNTrapped (B64.arith sum) w' dens) nInit) = .ok ((B64.arith sum).div nFree ((B64.arith sum).sub (cyNTrapped (B64.arith sum) w' dens) nInit)) := by
      unfold pyDiv
      rw [if_neg]
      have : (B64.arith sum).eq ((B64.arith sum).sub (cyNTrapped (B64.arith sum) w' dens) nInit) (B64.arith sum).zero = decide (B64.round (c1 - c0) = 0) := val_eq hv val_zero
      rw [this]
      simpa using hd0
    have hno := enough_plain (sum := sum) ha a0 hv hd0 (round_mono_rep ha.rep hle)
    refine ⟨(B64.arith sum).sub (cyNTrapped (B64.arith sum) w' dens) nInit, _, ?_, hv, r1⟩
    have e1 : (instantOps (B64.arith sum) dens p).trapped w' = cyNTrapped (B64.arith sum) w' dens := rfl
    rw [e1, hpy]
    simp only [bind, Except.bind]
    rw [if_neg hno, collapse_id hi]

/-! ### which rows are filled -/

theorem eq_one_false {x : B64} {q : ℚ} (h : Val x q) (hq : q < 1) : B64.eq x B64.one = false := by
  rw [val_eq h val_one]
  simpa using hq.ne

theorem indexNotFilled_eq [NeZero s] {k : ℕ} {w : WM B64 s} {r : Row B64 s} (hf : ∀ i < k, ∀ r, w[i]? = some r → ∀ a, r.fill a = B64.one)
    (hr : w[k]? = some r) (hn : ∀ a, B64.eq (r.fill a) B64.one = false) : indexNotFilled D B64.one w = k := by
  refine le_antisymm ?_ (indexNotFilled_ge (fun i hi r hr a => by rw [hf i hi r hr a]; exact one_eq_one) hr hn)
  obtain ⟨a, ha⟩ := indexNotFilled_mem B64.one w
  rw [ha]
  refine argmaxTrue_le ?_
  rw [List.getElem?_map, hr, Option.map_some]
  congr 1
  change (!B64.eq (r.fill a) B64.one) = true
  rw [hn a]
  rfl

theorem collapseCopy_front [AnyOrder sum] {k : ℕ} {w init : WM B64 s} (hk : indexNotFilled D B64.one w = k) (h1 : 1 ≤ k)
    (hl : k ≤ w.length) (hf : ∀ r, w[0]? = some r → ∀ a, r.fill a = B64.one) (hv : ∀ v ∈ (w.map Row.vol).take k, ∃ q, Val v q)
    (hs : asum ((w.map Row.vol).take k) ≤ 8) (hn : (k : ℚ) * err ≤ 1) :
    ∃ X c, (collapseCopy (B64.arith sum) B64.one w init).1 =
        (⟨X, fun _ => B64.one⟩ : Row B64 s) :: w.drop k ++ List.replicate (k - 1) (zeroRow D s) ∧
      Val X c ∧ |c - vsum ((w.map Row.vol).take k)| ≤ k * err := by
  have he := err_pos
  have hk' : indexNotFilled (B64.arith sum) B64.one w = k := hk
  unfold collapseCopy
  simp only
  rw [hk']
  by_cases hk1 : k ≤ 1
  · have : k = 1 := by omega
    subst this
    rw [if_pos le_rfl]
    obtain ⟨r, l, rfl⟩ := List.exists_cons_of_ne_nil (l := w) (by intro e; rw [e] at hl; simp at hl)
    obtain ⟨q, hq⟩ := hv r.vol (by simp)
    refine ⟨r.vol, q, ?_, hq, ?_⟩
    · simp only [List.drop_succ_cons, List.drop_zero, Nat.sub_self, List.replicate_zero, List.append_nil]
      congr 1
      have hr := hf r rfl
      cases r with
      | mk v f =>
        have : f = fun _ => B64.one := funext hr
        subst this
        rfl
    · rw [List.map_cons, List.take_succ_cons, List.take_zero, vsum_cons, vsum_nil, hq.val, add_zero, sub_self, abs_zero]
      push_cast
      linarith
  · rw [if_neg hk1]
    obtain ⟨c, hc, hce⟩ := sum_near (sum := sum) hv hs (k := k) ((nonzero_le _).trans (by rw [List.length_take]; omega)) hn
    refine ⟨sum ((w.map Row.vol).take k), c, ?_, hc, hce⟩
    rw [← List.map_take]
    exact collapseRows_list (A := B64.arith sum) k w _ h1 hl

/-- What is left of the array: a full row below the rows above the cloud. -/
theorem front_index [NeZero s] {X : B64} {R : WM B64 s} (hR : R ≠ []) (hlt : ∀ r ∈ R, ∀ a, B64.eq (r.fill a) B64.one = false) :
    indexNotFilled D B64.one ((⟨X, fun _ => B64.one⟩ : Row B64 s) :: R) ≤ 1 := by
  obtain ⟨r, l, rfl⟩ := List.exists_cons_of_ne_nil hR
  refine (indexNotFilled_eq (k := 1) (r := r) ?_ rfl (hlt r List.mem_cons_self)).le
  intro i hi q hq a
  have : i = 0 := by omega
  subst this
  rw [List.getElem?_cons_zero] at hq
  rw [← Option.some.inj hq]

/-! ### functions that do not use `np.sum` -/

theorem valueInCumsumLoop_sum (x : B64) (vs : List B64) : ∀ t, valueInCumsumLoop (B64.arith sum) x t vs = valueInCumsumLoop D x t vs := by
  induction vs with
  | nil => intro t; rfl
  | cons v vs ih =>
    intro t
    unfold valueInCumsumLoop
    rw [ih]
    rfl

theorem cyValueInCumsum_sum (x : B64) (vs : List B64) : cyValueInCumsum (B64.arith sum) x vs = cyValueInCumsum D x vs := by
  cases vs with
  | nil => rfl
  | cons v vs => exact valueInCumsumLoop_sum x vs v

theorem indexAboveLoop_sum (x : B64) (vs : List B64) : ∀ t i k, indexAboveLoop (B64.arith sum) x vs t i k = indexAboveLoop D x vs t i k := by
  induction vs with
  | nil => intro t i k; rfl
  | cons v vs ih =>
    intro t i k
    unfold indexAboveLoop
    simp only [ih]
    rfl

theorem watermarkIndexAboveCloud_sum (x : B64) (w : WM B64 s) (k : ℤ) :
    watermarkIndexAboveCloud (B64.arith sum) x w k = watermarkIndexAboveCloud D x w k := by
  unfold watermarkIndexAboveCloud cyIndexAbove
  simp only [indexAboveLoop_sum]
  rfl

/-! ### running totals -/

theorem totals_mono {m : ℕ} {wm : WM B64 s} (h : Tidy m wm) {i i' : ℕ} (hi : i ≤ i') {c c' : ℚ}
    (hc : Val (total D ((wm.map Row.vol).take i)) c) (hc' : Val (total D ((wm.map Row.vol).take i')) c') : c ≤ c' := by
  induction i' generalizing c' with
  | zero =>
    have : i = 0 := by omega
    subst this
    exact (hc.unique hc').le
  | succ i' ih =>
    rcases Nat.lt_or_ge i' i with hlt | hle
    · have : i = i' + 1 := by omega
      subst this
      exact (hc.unique hc').le
    · rcases Nat.lt_or_ge i' wm.length with hl | hl
      · have hr := List.getElem?_eq_getElem hl
        rw [total_succ hr] at hc'
        obtain ⟨⟨p, hp⟩, q, hq⟩ := val_of_add hc'
        obtain ⟨q', hq', q0⟩ := h.vols _ (List.getElem_mem hl)
        rw [hq'.unique hq] at q0
        rw [val_add_inv hp hq hc']
        exact (ih hle hp).trans (round_mono_rep' hp.rep (by linarith))
      · rw [List.take_of_length_le (by simp; omega)] at hc'
        refine ih hle ?_
        rw [List.take_of_length_le (by simp; omega)]
        exact hc'

theorem valueInCumsumLoop_true {x : B64} (vs : List B64) : ∀ t, valueInCumsumLoop D x t vs = true →
    ∃ k, B64.eq x ((vs.take k).foldl B64.add t) = true := by
  induction vs with
  | nil => intro t h; exact ⟨0, h⟩
  | cons v vs ih =>
    intro t h
    unfold valueInCumsumLoop at h
    split at h
    · rename_i h0; exact ⟨0, h0⟩
    · obtain ⟨k, hk⟩ := ih _ h
      exact ⟨k + 1, hk⟩

theorem in_cumsum {m : ℕ} {wm : WM B64 s} {cloud : B64} {x : ℚ} (h : Tidy m wm) (hm1 : 1 ≤ m) (hs : SumsOk wm)
    (hx : Val cloud x) (hc : cyValueInCumsum D cloud (wm.map Row.vol) = true) :
    ∃ i, Val (total D ((wm.map Row.vol).take i)) x := by
  obtain ⟨r, l, rfl⟩ := List.exists_cons_of_ne_nil (l := wm) (by intro e; have := h.le; rw [e] at this; simp at this; omega)
  have hp := h.formed.pos r (mem_take_of (i := 0) rfl hm1)
  obtain ⟨k, hk⟩ := valueInCumsumLoop_true (l.map Row.vol) r.vol hc
  refine ⟨k + 1, ?_⟩
  have e : total D (((r :: l).map Row.vol).take (k + 1)) = ((l.map Row.vol).take k).foldl D.add r.vol := by
    rw [List.map_cons, List.take_succ_cons]
    unfold total
    rw [List.foldl_cons]
    congr 1
    exact zero_add_pos hp
  obtain ⟨c, hcv, -⟩ := hs (k + 1)
  have hcv' := hcv
  rw [e] at hcv'
  have h2 : B64.eq cloud (((l.map Row.vol).take k).foldl D.add r.vol) = true := hk
  rw [val_eq hx hcv'] at h2
  have : x = c := by simpa using h2
  rw [this]
  exact hcv

/-- The error of the running total of the first `i` volumes. -/
theorem Tidy.total_near {m : ℕ} {wm : WM B64 s} (h : Tidy m wm) (hB : vsum (wm.map Row.vol) ≤ 2) (hn : (m : ℚ) * err ≤ 1)
    {i : ℕ} (hi : i ≤ m) :
    ∃ c, Val (total D ((wm.map Row.vol).take i)) c ∧ |c - vsum ((wm.map Row.vol).take i)| ≤ i * err := by
  have hl : ((wm.map Row.vol).take i).length = i := by
    rw [List.length_take, List.length_map]
    have := h.le
    omega
  have hS := h.sized hB
  have hie : (i : ℚ) * err ≤ m * err := mul_le_mul_of_nonneg_right (by exact_mod_cast hi) err_pos.le
  obtain ⟨c, hc, hce⟩ := total_err ((wm.map Row.vol).take i) (fun v hv => hS.1 v (List.mem_of_mem_take hv))
    (fun k hk => by rw [List.take_take]; exact h.formed.partials hS (by norm_num) _) (by rw [hl]; linarith)
  rw [hl] at hce
  exact ⟨c, hc, hce⟩

/-! ### the split in numbers -/

theorem split_numbers {t q x c n u X : ℚ} (t0 : 0 ≤ t) (t3 : t ≤ 3) (q0 : 0 ≤ q) (q2 : q ≤ 2) (x0 : 0 ≤ x) (x1 : x ≤ 1)
    (hc : c = B64.round (t + q)) (hn : n = B64.round (x - B64.round (c - q))) (hu : u = B64.round (q - n)) (hX : X = B64.round (t + n)) :
    |X - x| ≤ 4 * err ∧ |X + u - (t + q)| ≤ 2 * err ∧ |n - (x - t)| ≤ 3 * err := by
  have he := err_pos
  have he1 : err ≤ 1 / 8 := by unfold err; norm_num
  have e1 := (round_err16 (q := t + q) (by rw [abs_le]; constructor <;> linarith)).1
  rw [← hc] at e1
  rw [abs_le] at e1
  have e2 := (round_err16 (q := c - q) (by rw [abs_le]; constructor <;> linarith)).1
  rw [abs_le] at e2
  have e3 := (round_err16 (q := x - B64.round (c - q)) (by rw [abs_le]; constructor <;> linarith)).1
  rw [← hn, abs_le] at e3
  have e4 := (round_err16 (q := q - n) (by rw [abs_le]; constructor <;> linarith)).1
  rw [← hu, abs_le] at e4
  have e5 := (round_err16 (q := t + n) (by rw [abs_le]; constructor <;> linarith)).1
  rw [← hX, abs_le] at e5
  refine ⟨?_, ?_, ?_⟩ <;> rw [abs_le] <;> constructor <;> linarith

end Arctic.Fp
