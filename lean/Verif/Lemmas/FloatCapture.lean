import Verif.Lemmas.FloatBlock

/-!
# Instant capture keeps the block of positive volumes, in double precision
-/

set_option linter.unusedSectionVars false
set_option linter.unusedVariables false

namespace Arctic.Fp

open B64

variable {s : ℕ}

/-- The running totals of the volumes are finite and far from overflow. -/
def SumsOk (wm : WM B64 s) : Prop := ∀ i, ∃ c, Val (total D ((wm.map Row.vol).take i)) c ∧ c ≤ big

theorem val_of_add {a b : B64} {c : ℚ} (h : Val (B64.add a b) c) : (∃ p, Val a p) ∧ ∃ q, Val b q := by
  cases a with
  | nan => cases h
  | inf n =>
    cases b with
    | nan => cases h
    | inf n' =>
      change Val (if n = n' then B64.inf n else .nan) c at h
      split at h
      · cases n <;> simp [Val, key] at h
      · cases h
    | negZero => cases n <;> simp [Val, key, B64.add] at h
    | fin q hq => cases n <;> simp [Val, key, B64.add] at h
  | negZero =>
    cases b with
    | nan => cases h
    | inf n' => cases n' <;> simp [Val, key, B64.add] at h
    | negZero => exact ⟨⟨0, rfl⟩, 0, rfl⟩
    | fin q hq => exact ⟨⟨0, rfl⟩, q, rfl⟩
  | fin p hp =>
    cases b with
    | nan => cases h
    | inf n' => cases n' <;> simp [Val, key, B64.add] at h
    | negZero => exact ⟨⟨p, rfl⟩, 0, rfl⟩
    | fin q hq => exact ⟨⟨p, rfl⟩, q, rfl⟩

/-- A finite sum is the rounded sum of finite numbers. -/
theorem val_add_inv {a b : B64} {p q c : ℚ} (ha : Val a p) (hb : Val b q) (h : Val (B64.add a b) c) :
    c = B64.round (p + q) := by
  rcases ha.cases with ⟨rfl, rfl⟩ | ⟨hp, rfl⟩
  · exact h.unique (val_add ha hb (by rw [zero_add, hb.rep.1]; exact hb.rep.2))
  rcases hb.cases with ⟨rfl, rfl⟩ | ⟨hq, rfl⟩
  · exact h.unique (val_add ha hb (by rw [add_zero, ha.rep.1]; exact ha.rep.2))
  change Val (pack (p + q)) c at h
  by_cases hov : |B64.round (p + q)| < limit
  · exact h.unique (val_pack hov)
  · exfalso
    unfold pack at h
    split at h
    · rename_i h0; rw [h0.1, abs_zero] at hov; exact hov (by unfold limit; positivity)
    · split at h
      · rename_i h3; exact hov h3.2
      · cases hd : decide (p + q < 0) <;> rw [hd] at h <;> simp [Val, key] at h

/-! ### the index above the cloud -/

section
variable {F : Type} {A : Arith F}

theorem indexAboveLoop_total (c : F) (vs : List F) : ∀ t i n, (indexAboveLoop A c vs t i n).1 = vs.foldl A.add t := by
  induction vs with
  | nil => intro t i n; rfl
  | cons v vs ih => intro t i n; unfold indexAboveLoop; exact ih _ _ _

theorem indexAboveLoop_stays (c : F) (vs : List F) : ∀ t i n, n ≤ i → (indexAboveLoop A c vs t i n).2 = n := by
  induction vs with
  | nil => intro t i n _; rfl
  | cons v vs ih =>
    intro t i n h
    unfold indexAboveLoop
    simp only
    have : (if A.le c (A.add t v) then min n i else n) = n := by split <;> omega
    rw [this]
    exact ih _ _ _ (by omega)

theorem indexAboveLoop_first (c : F) (vs : List F) : ∀ t i n j, j < vs.length → i + vs.length ≤ n →
    (∀ k ≤ j, 0 < k → A.le c ((vs.take k).foldl A.add t) = false) →
    A.le c ((vs.take (j + 1)).foldl A.add t) = true → (indexAboveLoop A c vs t i n).2 = i + j := by
  induction vs with
  | nil => intro t i n j hj; simp at hj
  | cons v vs ih =>
    intro t i n j hj hn hlt hle
    rw [List.length_cons] at hj hn
    unfold indexAboveLoop
    simp only
    cases j with
    | zero =>
      have : A.le c (A.add t v) = true := hle
      rw [if_pos this, indexAboveLoop_stays _ _ _ _ _ (by omega)]
      omega
    | succ j =>
      have h1 : A.le c (A.add t v) = false := hlt 1 (by omega) (by omega)
      rw [if_neg (by rw [h1]; simp), ih (A.add t v) (i + 1) n j (by omega) (by omega) ?_ hle]
      · omega
      · intro k hk hk0
        exact hlt (k + 1) (by omega) (by omega)

theorem valueInCumsumLoop_false {x : F} (vs : List F) : ∀ t, valueInCumsumLoop A x t vs = false →
    ∀ k, A.eq x ((vs.take k).foldl A.add t) = false := by
  induction vs with
  | nil =>
    intro t h k
    rw [List.take_nil]
    exact h
  | cons v vs ih =>
    intro t h k
    unfold valueInCumsumLoop at h
    split at h
    · cases h
    · rename_i h0
      cases k with
      | zero => simpa using h0
      | succ k => exact ih _ h k

end

theorem total_succ {wm : WM B64 s} {i : ℕ} {r : Row B64 s} (h : wm[i]? = some r) :
    total D ((wm.map Row.vol).take (i + 1)) = B64.add (total D ((wm.map Row.vol).take i)) r.vol := by
  have h' : (wm.map Row.vol)[i]? = some r.vol := by rw [List.getElem?_map, h]; rfl
  unfold total
  rw [List.take_add_one, h', Option.toList_some, List.foldl_append]
  rfl

theorem index_formed {m : ℕ} {wm : WM B64 s} {cloud : B64} {x : ℚ} (h : Formed m wm) (hm : m < wm.length)
    (hm1 : 1 ≤ m) (hs : SumsOk wm) (hx : Val cloud x) (x0 : 0 < x) :
    (watermarkIndexAboveCloud D cloud wm ((m : ℤ) - 1) = m ∧
        ∃ c, Val (B64.sumLeft (wm.map Row.vol)) c ∧ c < x ∧ 0 ≤ c) ∨
      ∃ j : ℕ, j < m ∧ watermarkIndexAboveCloud D cloud wm ((m : ℤ) - 1) = j ∧
        (∃ t, Val (total D ((wm.map Row.vol).take j)) t ∧ t < x) ∧
        ∃ c, Val (total D ((wm.map Row.vol).take (j + 1))) c ∧ x ≤ c := by
  have hne : D.eq cloud D.zero = false := pos_ne_zero (pos_of_val hx x0)
  have hall : (wm.map Row.vol).take wm.length = wm.map Row.vol := by rw [List.take_of_length_le (by simp)]
  obtain ⟨c, hc, cb⟩ := hs wm.length
  unfold watermarkIndexAboveCloud
  rw [hne, if_neg (by simp)]
  unfold cyIndexAbove
  have h1 := indexAboveLoop_total (A := D) cloud (wm.map Row.vol) D.zero 0 wm.length
  have hlt : D.lt (indexAboveLoop D cloud (wm.map Row.vol) D.zero 0 wm.length).1 cloud = decide (c < x) := by
    rw [h1]
    rw [hall] at hc
    exact val_lt hc hx
  simp only [hlt]
  by_cases hcx : c < x
  · left
    rw [if_pos (by simpa using hcx)]
    refine ⟨by omega, c, ?_, hcx, ?_⟩
    · rw [hall] at hc
      obtain ⟨r, l, rfl⟩ := List.exists_cons_of_ne_nil (l := wm) (by intro e; rw [e] at hm; simp at hm)
      rw [List.map_cons, sumLeft_total]
      · exact hc
      · exact h.pos r (mem_take_of (i := 0) rfl hm1)
    · -- the volumes are not negative
      have : ∀ i, i ≤ wm.length → ∀ c, Val (total D ((wm.map Row.vol).take i)) c → 0 ≤ c := by
        intro i
        induction i with
        | zero => intro _ c hc; rw [hc.unique val_zero]
        | succ i ih =>
          intro hi c hc
          have hr := List.getElem?_eq_getElem (show i < wm.length by omega)
          rw [total_succ hr] at hc
          obtain ⟨⟨p, hp⟩, q, hq⟩ := val_of_add hc
          have p0 := ih (by omega) p hp
          have q0 : 0 ≤ q := by
            by_cases him : i < m
            · exact ((h.pos _ (mem_take_of hr him)).val hq).le
            · rw [hq.unique (h.zero _ (mem_drop_of hr (by omega)))]
          rw [val_add_inv hp hq hc]
          exact round_mono_rep' rep_zero (by linarith)
      exact this _ le_rfl c hc
  · right
    rw [if_neg (by simpa using hcx)]
    push Not at hcx
    -- the first row whose running total reaches the cloud
    have hex : ∃ i, ∃ c, Val (total D ((wm.map Row.vol).take i)) c ∧ x ≤ c := ⟨wm.length, c, hc, hcx⟩
    classical
    have hmin := fun i (hi : i < Nat.find hex) => Nat.find_min hex hi
    obtain ⟨c1, hc1, hx1⟩ := Nat.find_spec hex
    have hlen : Nat.find hex ≤ wm.length := Nat.find_min' hex ⟨c, hc, hcx⟩
    generalize Nat.find hex = i at hmin hc1 hx1 hlen
    cases i with
    | zero =>
      have := hc1.unique val_zero
      linarith
    | succ j =>
      have hr := List.getElem?_eq_getElem (show j < wm.length by omega)
      have hbelow : ∀ k ≤ j, ∃ t, Val (total D ((wm.map Row.vol).take k)) t ∧ t < x := by
        intro k hk
        obtain ⟨t, ht, -⟩ := hs k
        refine ⟨t, ht, ?_⟩
        by_contra hcon
        exact hmin k (by omega) ⟨t, ht, by linarith⟩
      have hjm : j < m := by
        by_contra hcon
        obtain ⟨t, ht, htx⟩ := hbelow j le_rfl
        have hz := h.zero _ (mem_drop_of hr (by omega))
        rw [total_succ hr] at hc1
        have := hc1.unique (val_add ht hz (by rw [add_zero, ht.rep.1]; exact ht.rep.2))
        rw [add_zero, ht.rep.1] at this
        linarith
      refine ⟨j, hjm, ?_, hbelow j le_rfl, c1, hc1, hx1⟩
      have := indexAboveLoop_first (A := D) cloud (wm.map Row.vol) D.zero 0 wm.length j (by simp; omega) (by simp)
        (fun k hk _ => by
          obtain ⟨t, ht, htx⟩ := hbelow k hk
          change B64.le cloud (total D ((wm.map Row.vol).take k)) = false
          rw [val_le hx ht]
          simpa using htx) (by
          change B64.le cloud (total D ((wm.map Row.vol).take (j + 1))) = true
          rw [val_le hx hc1]
          simpa using hx1)
      rw [this, zero_add]

/-- A cloud that is no running total is not the running total of any row. -/
theorem not_in_cumsum {m : ℕ} {wm : WM B64 s} {cloud : B64} {x : ℚ} (h : Formed m wm) (hm : m < wm.length)
    (hm1 : 1 ≤ m) (hx : Val cloud x) (hc : cyValueInCumsum D cloud (wm.map Row.vol) = false) (j : ℕ) {c : ℚ}
    (hv : Val (total D ((wm.map Row.vol).take (j + 1))) c) : x ≠ c := by
  obtain ⟨r, l, rfl⟩ := List.exists_cons_of_ne_nil (l := wm) (by intro e; rw [e] at hm; simp at hm)
  have hp := h.pos r (mem_take_of (i := 0) rfl hm1)
  have h1 := valueInCumsumLoop_false (A := D) (l.map Row.vol) r.vol hc j
  have e : total D (((r :: l).map Row.vol).take (j + 1)) = ((l.map Row.vol).take j).foldl D.add r.vol := by
    rw [List.map_cons, List.take_succ_cons]
    unfold total
    rw [List.foldl_cons]
    congr 1
    exact zero_add_pos hp
  rw [← e] at h1
  have h2 : B64.eq cloud (total D (((r :: l).map Row.vol).take (j + 1))) = false := h1
  rw [val_eq hx hv] at h2
  simpa using h2

/-! ### the split -/

theorem split_values {pre : List B64} {v cloud : B64} {t c x : ℚ} (hpre : ∀ u ∈ pre, Pos u) (hv : Pos v)
    (ht : Val (total D pre) t) (hc : Val (total D (pre ++ [v])) c) (tb : t ≤ big) (cb : c ≤ big)
    (hx : Val cloud x) (x0 : 0 < x) (h1 : t < x) (h2 : x < c) :
    Pos (D.sub v (lowerPart D pre v cloud)) ∧ Pos (total D (pre ++ [lowerPart D pre v cloud])) ∧
      (pre = [] → Pos (lowerPart D pre v cloud)) ∧
      ∃ n u q, Val (lowerPart D pre v cloud) n ∧ Val (D.sub v (lowerPart D pre v cloud)) u ∧ Val v q ∧ -t ≤ n ∧ n < q ∧
        u = B64.round (q - n) := by
  have hadd : total D (pre ++ [v]) = B64.add (total D pre) v := by
    unfold total; rw [List.foldl_append]; rfl
  have hadd' : total D (pre ++ [lowerPart D pre v cloud]) = B64.add (total D pre) (lowerPart D pre v cloud) := by
    unfold total; rw [List.foldl_append]; rfl
  have hb0 : (0 : ℚ) < big := by unfold big; positivity
  have hc' := hc
  rw [hadd] at hc'
  obtain ⟨-, q, hq⟩ := val_of_add hc'
  have q0 := hv.val hq
  have t0 : 0 ≤ t ∧ (pre ≠ [] → 0 < t) := by
    cases pre with
    | nil => exact ⟨by rw [ht.unique val_zero], fun h => absurd rfl h⟩
    | cons a l =>
      have : Pos (total D (a :: l)) := by
        unfold total
        rw [List.foldl_cons]
        exact pos_foldl (fun u hu => hpre u (List.mem_cons_of_mem _ hu))
          (by change Pos (B64.add B64.zero a); rw [zero_add_pos (hpre a List.mem_cons_self)]; exact hpre a List.mem_cons_self)
      exact ⟨(this.val ht).le, fun _ => this.val ht⟩
  have hce : c = B64.round (t + q) := val_add_inv ht hq hc'
  have hcr : Rep (B64.round (t + q)) := by rw [← hce]; exact hc.rep
  obtain ⟨b1, b2, b3⟩ := lower_bounds ht.rep hq.rep hx.rep t0.1 q0 tb hcr h1 (by rw [← hce]; exact h2)
  rw [← hce] at b1 b2 b3 hcr
  have hqc : q ≤ c := by rw [hce]; exact round_mono_rep' hq.rep (by linarith [t0.1])
  have ha0 : 0 ≤ B64.round (c - q) := round_mono_rep' rep_zero (by linarith)
  have hac : B64.round (c - q) ≤ c := round_mono_rep hcr (by linarith)
  have va : Val (D.sub (total D (pre ++ [v])) v) (B64.round (c - q)) :=
    val_sub hc hq (round_small (by rw [abs_le]; constructor <;> linarith))
  have vn : Val (lowerPart D pre v cloud) (B64.round (x - B64.round (c - q))) :=
    val_sub hx va (round_small (by rw [abs_le]; constructor <;> linarith))
  generalize B64.round (x - B64.round (c - q)) = n at b1 b2 b3 vn
  have hn : -t ≤ n := by
    rcases t0.1.eq_or_lt with h | h
    · rw [b3 h.symm]; linarith
    · linarith [b2 h]
  have tq : t + q ≤ 2 * big := by linarith
  refine ⟨?_, ?_, fun h => ?_, n, _, q, vn, val_sub hq vn (round_small (by rw [abs_le]; constructor <;> linarith)), hq, hn, b1, rfl⟩
  · refine pos_of_val (val_sub hq vn (round_small (by rw [abs_le]; constructor <;> linarith))) ?_
    exact (round_sub_pos hq.rep vn.rep).2 b1
  · rw [hadd']
    have hpos : 0 < B64.round (t + n) := by
      rcases t0.1.eq_or_lt with h | h
      · rw [← h, zero_add, b3 h.symm, hx.rep.1]; exact x0
      · have := (round_sub_pos ht.rep vn.rep.neg).2 (by linarith [b2 h])
        rwa [sub_neg_eq_add] at this
    exact pos_of_val (val_add ht vn (round_small (by rw [abs_le]; constructor <;> linarith))) hpos
  · subst h
    have := ht.unique val_zero
    rw [b3 this] at vn
    exact pos_of_val vn x0

/-! ### the totals -/

/-- The running totals are those of the block, up to the roundings. -/
theorem Formed.totals {m : ℕ} {B : ℚ} {wm : WM B64 s} (h : Formed m wm) (hs : VolSized B (wm.map Row.vol)) (hB : B ≤ 8)
    (hn : (m : ℚ) * err ≤ 1) (i : ℕ) :
    ∃ c, Val (total D ((wm.map Row.vol).take i)) c ∧ |c - vsum ((wm.map Row.vol).take i)| ≤ m * err := by
  have key : ∀ i ≤ m, ∃ c, Val (total D ((wm.map Row.vol).take i)) c ∧
      |c - vsum ((wm.map Row.vol).take i)| ≤ m * err := by
    intro i hi
    have hl : ((wm.map Row.vol).take i).length = i := by
      rw [List.length_take, List.length_map]
      have := h.le
      omega
    have hie : (i : ℚ) * err ≤ m * err := mul_le_mul_of_nonneg_right (by exact_mod_cast hi) err_pos.le
    obtain ⟨c, hc, hce⟩ := total_err ((wm.map Row.vol).take i) (fun v hv => hs.1 v (List.mem_of_mem_take hv))
      (fun k hk => by rw [List.take_take]; exact h.partials hs hB _) (by rw [hl]; linarith)
    rw [hl] at hce
    exact ⟨c, hc, hce.trans hie⟩
  rcases Nat.lt_or_ge m i with hi | hi
  · obtain ⟨c, hc, hce⟩ := key m le_rfl
    have e : (wm.map Row.vol).take i = (wm.map Row.vol).take m ++ ((wm.map Row.vol).drop m).take (i - m) := by
      conv_lhs => rw [show i = m + (i - m) by omega]
      exact List.take_add
    have hz : ∀ v ∈ ((wm.map Row.vol).drop m).take (i - m), Val v 0 := by
      intro v hv
      have hv := List.mem_of_mem_take hv
      rw [← List.map_drop] at hv
      obtain ⟨r, hr, rfl⟩ := List.mem_map.1 hv
      exact h.zero r hr
    refine ⟨c, ?_, ?_⟩
    · rw [e]
      unfold total
      rw [List.foldl_append]
      exact foldl_zeros hz hc
    · rw [e, vsum_append, vsum_zeros hz, add_zero]; exact hce
  · exact key i hi

theorem big_ge : (16 : ℚ) ≤ big := by
  unfold big
  have h4 : (2 : ℚ) ^ 4 ≤ 2 ^ 900 := pow_le_pow_right₀ (by norm_num) (by norm_num)
  have h16 : (16 : ℚ) = 2 ^ 4 := by norm_num
  rw [h16]
  exact h4

theorem Formed.sumsOk {m : ℕ} {B : ℚ} {wm : WM B64 s} (h : Formed m wm) (hs : VolSized B (wm.map Row.vol)) (hB : B ≤ 8)
    (hn : (m : ℚ) * err ≤ 1) : SumsOk wm := by
  intro i
  obtain ⟨c, hc, hce⟩ := h.totals hs hB hn i
  refine ⟨c, hc, ?_⟩
  have := big_ge
  have h2 := (hs.partial (h.nonneg hs) i).2
  rw [abs_le] at hce
  linarith

/-! ### one transfer -/

theorem mapFills_get (n : ℕ) (g : Fin s → B64 → B64) (wm : WM B64 s) (i : ℕ) {r : Row B64 s}
    (h : (mapFills 0 n g wm)[i]? = some r) :
    ∃ q, wm[i]? = some q ∧ q.vol = r.vol ∧ (n ≤ i → q = r) ∧ (i < n → r.fill = fun j => g j (q.fill j)) := by
  unfold mapFills at h
  rw [List.getElem?_mapIdx] at h
  cases hw : wm[i]? with
  | none => rw [hw] at h; cases h
  | some q =>
    rw [hw, Option.map_some] at h
    injection h with h
    refine ⟨q, rfl, ?_, ?_, ?_⟩
    · rw [← h]; split <;> rfl
    · intro hi; rw [← h, if_neg (by omega)]
    · intro hi; rw [← h, if_pos ⟨by omega, hi⟩]

theorem sum_pos {P Q : List B64} {n : B64} (hP : ∀ v ∈ P, Pos v) (hQ : ∀ v ∈ Q, Pos v) (h : Pos (total D (P ++ [n])))
    (h0 : P = [] → Pos n) : Pos (B64.sumLeft (P ++ n :: Q)) := by
  cases P with
  | nil => exact pos_foldl hQ (h0 rfl)
  | cons a P =>
    rw [List.cons_append, sumLeft_total (hP a List.mem_cons_self)]
    have e : total D (a :: (P ++ n :: Q)) = Q.foldl B64.add (total D (a :: P ++ [n])) := by
      unfold total
      rw [show a :: (P ++ n :: Q) = (a :: P ++ [n]) ++ Q by simp, List.foldl_append]
      rfl
    rw [e]
    exact pos_foldl hQ h

theorem collapseCopy_formed [NeZero s] {m : ℕ} {B : ℚ} {fl : B64} {wm init : WM B64 s} (h : Formed m wm) (hm : m < wm.length)
    (hm1 : 1 < wm.length) (hg : Fl fl wm) (hl : init.length = wm.length) (hi : ∀ r ∈ init.drop (max m 1), NilRow r)
    (hs : VolSized B (wm.map Row.vol)) (hB : B ≤ 8) (hn : (m : ℚ) * err ≤ 1) :
    (collapseCopy D fl wm init).1.length = wm.length ∧ (collapseCopy D fl wm init).2.length = wm.length ∧
      VolSized (B + m * err) ((collapseCopy D fl wm init).1.map Row.vol) ∧
      ∃ m' ≤ m, Formed m' (collapseCopy D fl wm init).1 ∧
        ∀ r ∈ (collapseCopy D fl wm init).2.drop (max m' 1), NilRow r := by
  unfold collapseCopy
  simp only
  have hb := indexNotFilled_le_block (m := max m 1) (wm := wm) (by omega) h.fills hg
  split
  · have hm0 : 0 ≤ (m : ℚ) * err := mul_nonneg (Nat.cast_nonneg _) err_pos.le
    exact ⟨rfl, hl, hs.mono (by linarith), m, le_rfl, h, hi⟩
  · rename_i hk
    generalize indexNotFilled D fl wm = k at hb hk
    have hk2 : 2 ≤ k := by omega
    have hkm : k ≤ m := by omega
    have hfl := h.fills
    rw [max_eq_left (by omega)] at hfl hi
    refine ⟨collapseRows_length (by omega), (collapseRows_length (by omega)).trans hl,
      hs.collapseRows (by omega) hkm hm (fun i _ => h.partials hs hB i) hn, m + 1 - k, by omega,
      collapse_shape hk2 hkm (by omega) ?_ (fun r hr => h.pos r (List.mem_of_mem_drop hr)) h.zero hfl, ?_⟩
    · refine pos_volumeFilled (by omega) (by intro e; rw [e] at hm; simp at hm) fun r hr => h.pos r ?_
      obtain ⟨i, hi⟩ := List.mem_iff_getElem?.1 hr
      rw [List.getElem?_take] at hi
      split at hi
      · exact mem_take_of hi (by omega)
      · cases hi
    · rw [max_eq_left (by omega)]
      exact collapse_nil hk2 hkm (by omega) hi

theorem zero_eq_zero : B64.eq B64.zero B64.zero = true := by decide +kernel

theorem one_eq_one : B64.eq B64.one B64.one = true := by decide +kernel

theorem icCapture_formed [NeZero s] {m : ℕ} {wm : WM B64 s} {ops : ICOps B64 s} {fill : B64 → B64} {nFree : B64} {x B : ℚ}
    (hops : OpsOk ops) (hg : Fl ops.filled wm)
    (hU : ops.filled = B64.one ∨ ∀ r ∈ wm.take m, ∀ a, B64.eq (r.fill a) ops.filled = false)
    (h : Formed m wm) (hm : m + 1 < wm.length) (hS : VolSized B (wm.map Row.vol)) (hB1 : 1 ≤ B) (hB2 : B ≤ 2)
    (hn : ((m + 1 : ℕ) : ℚ) * err ≤ 1 / 2) (hx : Val (fill nFree) x) (x0 : 0 ≤ x) (x1 : x ≤ 1)
    (hf : 0 < x → B64.lt B64.zero nFree = true) :
    Sat (fun _ => True) (fun r => r.2.length = wm.length ∧ (∃ m' ≤ m + 1, Formed m' r.2) ∧
        VolSized (B + 3 * ((m + 1 : ℕ) * err)) (r.2.map Row.vol) ∧ Fl ops.filled r.2)
      (icCapture D ops fill nFree wm) := by
  have hep := err_pos
  have hme : ((m + 1 : ℕ) : ℚ) * err = m * err + err := by push_cast; ring
  have hm0 : 0 ≤ (m : ℚ) * err := mul_nonneg (Nat.cast_nonneg _) hep.le
  have hn' : (m : ℚ) * err ≤ 1 := by linarith
  have hs : SumsOk wm := h.sumsOk hS (by linarith) hn'
  unfold icCapture
  simp only
  rw [h.maxIndex (by omega)]
  split
  · -- first capture
    rename_i hfirst
    have hm0 : m = 0 := by omega
    subst hm0
    obtain ⟨r0, l, rfl⟩ := List.exists_cons_of_ne_nil (l := wm) (by intro e; rw [e] at hm; simp at hm)
    have key : Formed (if 0 < x then 1 else 0) ((⟨fill nFree, fun _ => ops.filled⟩ : Row B64 s) :: l) := by
      refine ⟨by split <;> simp, ?_, ?_, ?_⟩
      · intro r hr
        split at hr
        · rename_i hp
          simp only [List.take_succ_cons, List.take_zero, List.mem_singleton] at hr
          rw [hr]; exact pos_of_val hx hp
        · simp at hr
      · intro r hr
        have hz : ∀ r ∈ l, Val r.vol 0 := fun r hr => h.zero r (List.mem_cons_of_mem _ hr)
        split at hr
        · exact hz r hr
        · rename_i hp
          rcases List.mem_cons.1 hr with rfl | hr
          · rw [show (0 : ℚ) = x by linarith]; exact hx
          · exact hz r hr
      · intro r hr
        have : max (if 0 < x then 1 else 0) 1 = 1 := by split <;> rfl
        rw [this] at hr
        exact h.fills r hr
    have hsz : VolSized (B + 3 * ((0 + 1 : ℕ) * err))
        (((⟨fill nFree, fun _ => ops.filled⟩ : Row B64 s) :: l).map Row.vol) := by
      have hz : ∀ v ∈ l.map Row.vol, Val v 0 := by
        intro v hv
        obtain ⟨r, hr, rfl⟩ := List.mem_map.1 hv
        exact h.zero r (List.mem_cons_of_mem _ hr)
      refine ⟨?_, ?_⟩
      · intro v hv
        rcases List.mem_cons.1 hv with rfl | hv
        · exact ⟨x, hx⟩
        · exact ⟨0, hz v hv⟩
      · rw [List.map_cons, vsum_cons, hx.val, vsum_zeros hz]
        linarith
    have hg1 : Fl ops.filled ((⟨fill nFree, fun _ => ops.filled⟩ : Row B64 s) :: l) := by
      refine hg.of fun r hr => ?_
      rcases List.mem_cons.1 hr with rfl | hr
      · exact Or.inr fun _ => Or.inl rfl
      · exact Or.inl ⟨r, List.mem_cons_of_mem _ hr, rfl⟩
    have hini : ∀ r ∈ (setVol (r0 :: l) 0 (fill nFree)).drop 1, NilRow r := by
      intro r hr
      exact h.fills r hr
    have hmle : (if 0 < x then 1 else 0) ≤ 0 + 1 := by split <;> omega
    have hmax : max (if 0 < x then 1 else 0) 1 = 1 := by split <;> rfl
    generalize (if 0 < x then 1 else 0) = m' at key hmle hmax
    unfold icFirstCapture
    simp only
    change Sat _ _ (if _ then _ else _)
    have em : (r0 :: l).modify 0 (fun _ => (⟨fill nFree, fun _ => ops.filled⟩ : Row B64 s)) =
      (⟨fill nFree, fun _ => ops.filled⟩ : Row B64 s) :: l := rfl
    rw [em]
    split
    · exact ⟨rfl, ⟨m', hmle, key⟩, hsz, hg1⟩
    · cases pyDiv D nFree (ops.trapped ((⟨fill nFree, fun _ => ops.filled⟩ : Row B64 s) :: l)) with
      | error e => trivial
      | ok e =>
        simp only [bind, Except.bind]
        split
        · rcases hops with ⟨hone, htw⟩ | ⟨-, htw⟩
          swap
          · obtain ⟨x, hx⟩ := htw ((⟨fill nFree, fun _ => ops.filled⟩ : Row B64 s) :: l) (setVol (r0 :: l) 0 (fill nFree)) e
            rw [hx]
            trivial
          rw [htw]
          have := notEnough_formed key (init := setVol (r0 :: l) 0 (fill nFree)) (by rw [setVol_length]; rfl)
            (by rw [hmax]; exact hini) e
          refine ⟨?_, ⟨m', hmle, this⟩, ?_, Or.inl hone⟩
          swap
          · change VolSized _ ((notEnough D _ _ e).map Row.vol)
            rw [notEnough_vols _ _ _ (by rw [setVol_length]; rfl)]
            exact hsz
          unfold notEnough
          rw [List.length_zipWith, setVol_length]
          exact min_self _
        · exact ⟨rfl, ⟨m', hmle, key⟩, hsz, hg1⟩
  · rename_i hfirst
    by_cases hx0 : x = 0
    · -- no cloud
      have hi : watermarkIndexAboveCloud D (fill nFree) wm ((m : ℤ) - 1) = -1 := by
        unfold watermarkIndexAboveCloud
        have : D.eq (fill nFree) D.zero = true := by
          change B64.eq _ B64.zero = true
          rw [val_eq hx val_zero]; simpa using hx0
        rw [if_pos this]
      rw [hi, if_pos (by omega)]
      unfold splitAtCloud
      have hnl : ¬ (D.lt D.zero (fill nFree) = true ∧ ¬ (cyValueInCumsum D (fill nFree) (wm.map Row.vol) = true)) := by
        rintro ⟨h1, -⟩
        have : B64.lt B64.zero (fill nFree) = true := h1
        rw [val_lt val_zero hx] at this
        simp [hx0] at this
      rw [if_neg hnl]
      have hF := h.mapFills (n := (-1 + 1 : ℤ).toNat) (by simp) (fun _ _ => ops.filled)
      have hl := mapFills_length 0 (-1 + 1 : ℤ).toNat (fun _ _ => ops.filled) wm
      obtain ⟨c1, c2, cs, m', hm', c3, c4⟩ := collapseCopy_formed hF (by rw [hl]; omega) (by rw [hl]; omega) (hg.mapFills _) hl.symm h.fills
        (B := B) (by rw [mapFills_vols]; exact hS) (by linarith) hn'
      have := finish_formed hops rfl nFree (ops.trapped wm) (hg.mapFills _).collapseCopy (M := m + 1) (m := m')
        (by omega) (by rw [hl]; omega) (by rw [hl]; omega) c1 c2 c3 c4 cs (by linarith) (by linarith)
      refine Sat.mono this fun r hr => ⟨hr.1.trans hl, hr.2.1, hr.2.2.1.mono (by linarith), hr.2.2.2⟩
    · have hx1 : 0 < x := lt_of_le_of_ne x0 (Ne.symm hx0)
      have hm1 : 1 ≤ m := by
        by_contra hc
        exact hfirst ⟨by omega, hf hx1⟩
      rcases index_formed h (by omega) hm1 hs hx hx1 with ⟨hi, c, hc, hcx, c0⟩ | ⟨j, hjm, hi, ⟨t, ht, htx⟩, c, hc, hxc⟩
      · -- a new watermark on top
        rw [hi, if_neg (by omega)]
        unfold newTopWatermark
        rw [if_pos ⟨by omega, by omega⟩]
        simp only [bind, Except.bind]
        have hcS : |c - vsum (wm.map Row.vol)| ≤ m * err := by
          obtain ⟨c', hc', hce⟩ := h.totals hS (by linarith) hn' wm.length
          have hall : (wm.map Row.vol).take wm.length = wm.map Row.vol := by rw [List.take_of_length_le (by simp)]
          rw [hall] at hc' hce
          have : B64.sumLeft (wm.map Row.vol) = total D (wm.map Row.vol) := by
            obtain ⟨r, l, e⟩ := List.exists_cons_of_ne_nil (l := wm) (by intro e; rw [e] at hm; simp at hm)
            have hp := h.pos r (mem_take_of (i := 0) (by rw [e]; rfl) hm1)
            rw [e, List.map_cons, sumLeft_total hp]
          rw [this] at hc
          rw [hc.unique hc']
          exact hce
        have hV : ∃ q, Val (D.sub (fill nFree) (D.sum (wm.map Row.vol))) q ∧ 0 ≤ q ∧ q ≤ x - c + err := by
          have hxc16 : |x - c| ≤ 16 := by rw [abs_le]; constructor <;> linarith
          obtain ⟨r1, r2⟩ := round_err16 hxc16
          have h4 := (round_sub_pos hx.rep hc.rep).2 hcx
          rw [abs_le] at r1
          exact ⟨_, val_sub hx hc r2, h4.le, by linarith⟩
        have hv : Pos (D.sub (fill nFree) (D.sum (wm.map Row.vol))) := by
          have h3 : B64.round (x - c) ≤ x := round_mono_rep hx.rep (by linarith)
          have h4 := (round_sub_pos hx.rep hc.rep).2 hcx
          have h5 := hx.rep.2
          rw [abs_of_pos hx1] at h5
          exact pos_of_val (val_sub hx hc (by rw [abs_of_pos h4]; linarith)) h4
        generalize D.sub (fill nFree) (D.sum (wm.map Row.vol)) = v at hv hV
        obtain ⟨vq, hvq, vq0, hvq1⟩ := hV
        set w := setVol wm ((m : ℕ) : ℤ).toNat v with hw
        have hwl : w.length = wm.length := setVol_length _ _ _
        have hwg : ∀ (i : ℕ) (r : Row B64 s), w[i]? = some r → ∃ q, wm[i]? = some q ∧ q.fill = r.fill ∧
            (i ≠ m → q = r) ∧ (i = m → r.vol = v) := by
          intro i r hr
          rw [hw] at hr
          unfold setVol at hr
          rw [List.getElem?_modify] at hr
          cases hq : wm[i]? with
          | none => rw [hq] at hr; simp at hr
          | some q =>
            rw [hq] at hr
            by_cases him : i = m
            · subst him
              simp at hr
              subst hr
              exact ⟨q, rfl, rfl, fun h => absurd rfl h, fun _ => rfl⟩
            · have : ¬ ((m : ℕ) : ℤ).toNat = i := by omega
              simp [Ne.symm him] at hr
              exact ⟨q, rfl, by rw [hr], fun _ => hr, fun h => absurd h him⟩
        set w1 := mapFills 0 ((m : ℤ) + 1).toNat (fun _ _ => ops.filled) w with hw1
        have hw1l : w1.length = wm.length := (mapFills_length _ _ _ _).trans hwl
        have hw1v : w1.map Row.vol = (wm.map Row.vol).set m v := by
          rw [hw1, mapFills_vols, hw]
          apply List.ext_getElem?
          intro i
          rw [List.getElem?_map, List.getElem?_set, List.getElem?_map]
          unfold setVol
          rw [List.getElem?_modify, List.length_map]
          by_cases him : m = i
          · subst him
            rw [if_pos rfl, if_pos (by omega), List.getElem?_eq_getElem (show m < wm.length by omega)]
            simp
          · rw [if_neg him]
            have : ¬ ((m : ℕ) : ℤ).toNat = i := by omega
            simp [him]
        have hgw : Fl ops.filled w1 := by
          refine Fl.mapFills (hg.of fun r hr => ?_) _
          obtain ⟨i, hi⟩ := List.mem_iff_getElem?.1 hr
          obtain ⟨q, hq, e, -, -⟩ := hwg i r hi
          exact Or.inl ⟨q, List.mem_iff_getElem?.2 ⟨i, hq⟩, e.symm⟩
        have hzm : (wm.map Row.vol)[m]? = some (wm[m]'(by omega)).vol := by
          rw [List.getElem?_map, List.getElem?_eq_getElem (by omega)]; rfl
        have hw1s : VolSized (B + (m + 1 : ℕ) * err) (w1.map Row.vol) := by
          rw [hw1v]
          refine ⟨?_, ?_⟩
          · intro u hu
            rcases List.mem_or_eq_of_mem_set hu with hu | rfl
            · exact hS.1 u hu
            · exact ⟨vq, hvq⟩
          · rw [vsum_set hzm (h.zero _ (mem_drop_of (List.getElem?_eq_getElem (by omega)) le_rfl)), hvq.val]
            rw [abs_le] at hcS
            linarith
        have hw1p : ∀ u ∈ w1.map Row.vol, ∃ q, Val u q ∧ 0 ≤ q := by
          intro u hu
          rw [hw1v] at hu
          rcases List.mem_or_eq_of_mem_set hu with hu | rfl
          · exact h.nonneg hS u hu
          · exact ⟨vq, hvq, vq0⟩
        have hpos1 : ∀ r ∈ w1.take (m + 1), Pos r.vol := by
          intro r hr
          obtain ⟨i, hi⟩ := List.mem_iff_getElem?.1 hr
          rw [List.getElem?_take] at hi
          split at hi
          · obtain ⟨q, hq, e, -, -⟩ := mapFills_get _ _ _ _ hi
            obtain ⟨q', hq', -, e1, e2⟩ := hwg _ _ hq
            rw [← e]
            by_cases him : i = m
            · rw [e2 him]; exact hv
            · rw [← e1 him]; exact h.pos q' (mem_take_of hq' (by omega))
          · cases hi
        have hnil1 : ∀ r ∈ w1.drop (m + 1), NilRow r := by
          intro r hr
          obtain ⟨i, hi⟩ := List.mem_iff_getElem?.1 hr
          rw [List.getElem?_drop] at hi
          obtain ⟨q, hq, -, e, -⟩ := mapFills_get _ _ _ _ hi
          obtain ⟨q', hq', -, e', -⟩ := hwg _ _ hq
          rw [← e (by omega), ← e' (by omega)]
          exact h.fills q' (mem_drop_of hq' (by omega))
        have hfill1 : ∀ i < m + 1, ∀ r, w1[i]? = some r → ∀ a, r.fill a = ops.filled := by
          intro i hi r hr a
          obtain ⟨q, hq, -, -, e⟩ := mapFills_get _ _ _ _ hr
          rw [e (by omega)]
        have hkk : (m + 1 ≤ indexNotFilled D ops.filled w1 ∧ indexNotFilled D ops.filled w1 ≤ m + 1) ∨
            (indexNotFilled D ops.filled w1 = 0 ∧ ∀ r ∈ w1.take (m + 1), Pos r.vol) := by
          have hle := indexNotFilled_le_block (m := m + 1) (by omega) hnil1 hgw
          rcases hgw with e1 | ⟨e0, hgood⟩
          · refine Or.inl ⟨indexNotFilled_ge (i := m + 1) ?_ (List.getElem?_eq_getElem (by omega)) fun a => ?_, hle⟩
            · intro i hi r hr a
              rw [hfill1 i hi r hr a, e1]
              exact one_eq_one
            · rw [e1]
              exact (hnil1 _ (mem_drop_of (List.getElem?_eq_getElem (by omega)) le_rfl) a).ne_one
          · refine Or.inr ⟨indexNotFilled_all fun r hr a => ?_, hpos1⟩
            obtain ⟨i, hi⟩ := List.mem_iff_getElem?.1 hr
            rw [e0]
            by_cases hie : i < m + 1
            · rw [hfill1 i hie r hi a, e0]; exact zero_eq_zero
            · exact (hnil1 r (mem_drop_of hi (by omega)) a).eq_zero (hgood r hr a)
        have hshape := collapseCopy_shape (fl := ops.filled) (m := m + 1) (j := m + 1) (B := B + (m + 1 : ℕ) * err) (wm := w1) (init := w) (by omega) (by omega)
          (by omega) (by omega)
          (by
            intro r hr
            obtain ⟨i, hi⟩ := List.mem_iff_getElem?.1 hr
            rw [List.getElem?_drop] at hi
            obtain ⟨q, hq, e, -, -⟩ := mapFills_get _ _ _ _ hi
            obtain ⟨q', hq', -, e', -⟩ := hwg _ _ hq
            rw [← e, ← e' (by omega)]
            exact h.zero q' (mem_drop_of hq' (by omega)))
          (by
            intro r hr
            obtain ⟨i, hi⟩ := List.mem_iff_getElem?.1 hr
            rw [List.getElem?_drop] at hi
            obtain ⟨q, hq, -, e, -⟩ := mapFills_get _ _ _ _ hi
            obtain ⟨q', hq', -, e', -⟩ := hwg _ _ hq
            rw [← e (by omega), ← e' (by omega)]
            exact h.fills q' (mem_drop_of hq' (by omega)))
          (by
            intro r hr
            obtain ⟨i, hi⟩ := List.mem_iff_getElem?.1 hr
            rw [List.getElem?_drop] at hi
            obtain ⟨q', hq', -, e', -⟩ := hwg _ _ hi
            rw [← e' (by omega)]
            exact h.fills q' (mem_drop_of hq' (by omega)))
          hkk
          (by
            intro k hk hk'
            refine pos_volumeFilled (by omega) (by intro e; rw [e] at hw1l; simp at hw1l; omega) ?_
            intro r hr
            obtain ⟨i, hi⟩ := List.mem_iff_getElem?.1 hr
            rw [List.getElem?_take] at hi
            split at hi
            · obtain ⟨q, hq, e, -, -⟩ := mapFills_get _ _ _ _ hi
              obtain ⟨q', hq', -, e1, e2⟩ := hwg _ _ hq
              rw [← e]
              by_cases him : i = m
              · rw [e2 him]; exact hv
              · rw [← e1 him]; exact h.pos q' (mem_take_of hq' (by omega))
            · cases hi)
          (by
            intro r hr
            rw [List.drop_eq_nil_of_le (by rw [List.length_take]; omega)] at hr
            cases hr)
          hw1s
          (fun i _ => by
            obtain ⟨p1, p2⟩ := hw1s.partial hw1p i
            rw [abs_le]
            constructor <;> linarith)
          (by linarith)
        obtain ⟨c1, c2, cs, m', hm', hm1', c3, c4⟩ := hshape
        have := finish_formed hops rfl nFree (ops.trapped wm) hgw.collapseCopy (M := m + 1) (m := m')
          (by omega) (by omega) (by omega) c1 c2 c3 (by rw [max_eq_left hm1']; exact c4) cs (by linarith) (by linarith)
        exact Sat.mono this fun r hr => ⟨hr.1.trans hw1l, hr.2.1, hr.2.2.1.mono (by linarith), hr.2.2.2⟩
      · rw [hi, if_pos (by omega)]
        unfold splitAtCloud
        by_cases hin : cyValueInCumsum D (fill nFree) (wm.map Row.vol) = true
        · -- the cloud ends at a watermark
          rw [if_neg (fun hc => hc.2 hin)]
          have hF := h.mapFills (n := ((j : ℤ) + 1).toNat) (by omega) (fun _ _ => ops.filled)
          have hl := mapFills_length 0 ((j : ℤ) + 1).toNat (fun _ _ => ops.filled) wm
          obtain ⟨c1, c2, cs, m', hm', c3, c4⟩ := collapseCopy_formed hF (by rw [hl]; omega) (by rw [hl]; omega) (hg.mapFills _) hl.symm h.fills
            (B := B) (by rw [mapFills_vols]; exact hS) (by linarith) hn'
          have := finish_formed hops rfl nFree (ops.trapped wm) (hg.mapFills _).collapseCopy (M := m + 1) (m := m')
            (by omega) (by rw [hl]; omega) (by rw [hl]; omega) c1 c2 c3 c4 cs (by linarith) (by linarith)
          exact Sat.mono this fun r hr => ⟨hr.1.trans hl, hr.2.1, hr.2.2.1.mono (by linarith), hr.2.2.2⟩
        · -- the watermark is split
          rw [if_pos ⟨pos_of_val hx hx1, hin⟩]
          have hr := List.getElem?_eq_getElem (show j < wm.length by omega)
          generalize wm[j]'(by omega) = r at hr
          set pre := wm.take j with hpre
          set rest := wm.drop (j + 1) with hrest
          have hpl : pre.length = j := by rw [hpre, List.length_take]; omega
          have ewm : wm = pre ++ r :: rest := by
            rw [hpre, hrest]
            conv_lhs => rw [← List.take_append_drop j wm]
            congr 1
            rw [List.drop_eq_getElem_cons (by omega)]
            congr 1
            rw [List.getElem?_eq_getElem (by omega)] at hr
            injection hr
          have hrl : rest.length = wm.length - (j + 1) := by rw [hrest, List.length_drop]
          have hupd := cyUpdateVolumes_list (A := D) pre rest r (fill nFree)
            (by intro e; rw [e] at hrl; simp at hrl; omega)
          rw [← ewm, hpl] at hupd
          have hvt : (wm.map Row.vol).take j = pre.map Row.vol := by rw [hpre, List.map_take]
          have hvt' : (wm.map Row.vol).take (j + 1) = pre.map Row.vol ++ [r.vol] := by
            rw [List.take_add_one, hvt, List.getElem?_map, hr]; rfl
          have hpp : ∀ u ∈ pre.map Row.vol, Pos u := by
            intro u hu
            obtain ⟨q, hq, rfl⟩ := List.mem_map.1 hu
            obtain ⟨i, hi⟩ := List.mem_iff_getElem?.1 hq
            rw [hpre, List.getElem?_take] at hi
            split at hi
            · exact h.pos q (mem_take_of hi (by omega))
            · cases hi
          have hrp : Pos r.vol := h.pos r (mem_take_of hr hjm)
          obtain ⟨t', ht', tb⟩ := hs j
          rw [ht.unique ht'] at htx ht
          obtain ⟨c', hc', cb⟩ := hs (j + 1)
          rw [hc.unique hc'] at hxc hc
          have hne := not_in_cumsum h (by omega) hm1 hx (by simpa using hin) j hc
          rw [hvt] at ht
          rw [hvt'] at hc
          have htj : t' ≤ 3 := by
            obtain ⟨t2, ht2, hte⟩ := h.totals hS (by linarith) hn' j
            rw [ht'.unique ht2]
            have := (hS.partial (h.nonneg hS) j).2
            rw [abs_le] at hte
            linarith
          obtain ⟨u1, u2, u3, n, u, q, hvn, hvu, hvq, hnt, hnq, hue⟩ := split_values hpp hrp ht hc tb cb hx hx1 htx (lt_of_le_of_ne hxc hne)
          generalize lowerPart D (pre.map Row.vol) r.vol (fill nFree) = new at hupd u1 u2 u3 hvn hvu
          generalize D.sub r.vol new = up at hupd u1 hvu
          have evols : wm.map Row.vol = pre.map Row.vol ++ r.vol :: rest.map Row.vol := by
            conv_lhs => rw [ewm]
            simp
          have hq2 : q ≤ 2 := by
            have hnn := h.nonneg hS
            have h2 := hS.2
            rw [evols] at hnn h2
            have h3 := vsum_sublist (l' := [r.vol]) (by simp) hnn
            rw [vsum_cons, vsum_nil, hvq.val] at h3
            linarith
          have hue' : |u - (q - n)| ≤ err := by
            rw [hue]
            exact (round_err16 (by rw [abs_le]; constructor <;> linarith)).1
          obtain ⟨hws, hwb⟩ := split_sized (P := pre.map Row.vol) (R := rest.map Row.vol) (B := B) (by rw [← evols]; exact hS)
            (by rw [← evols]; exact h.nonneg hS) hvq hvn hvu (by linarith) hnq hue' (by linarith)
          set w : WM B64 s := pre ++ ⟨new, r.fill⟩ :: ⟨up, r.fill⟩ :: rest.dropLast with hw
          have hwl : w.length = wm.length := by
            rw [hw, List.length_append, List.length_cons, List.length_cons, List.length_dropLast, hpl, hrl]; omega
          -- rows above the split
          have hwg : ∀ (i : ℕ) (q : Row B64 s), j + 2 ≤ i → w[i]? = some q → wm[i - 1]? = some q := by
            intro i q hi hq
            rw [hw, List.getElem?_append_right (by omega), hpl,
              show i - j = (i - j - 2) + 1 + 1 by omega, List.getElem?_cons_succ, List.getElem?_cons_succ,
              List.getElem?_dropLast] at hq
            split at hq
            · rw [hrest, List.getElem?_drop] at hq
              rw [← hq, show j + 1 + (i - j - 2) = i - 1 by omega]
            · cases hq
          have hwj : w[j + 1]? = some ⟨up, r.fill⟩ := by
            rw [hw, List.getElem?_append_right (by omega), hpl, show j + 1 - j = 1 by omega]; rfl
          unfold updateVolumes
          simp only [show ¬ ((j : ℤ) < 0) by omega, if_false, Int.toNat_natCast, hupd, bind, Except.bind]
          set w1 := mapFills 0 ((j : ℤ) + 1).toNat (fun _ _ => ops.filled) w with hw1
          have hw1l : w1.length = wm.length := (mapFills_length _ _ _ _).trans hwl
          have hw1v : w1.map Row.vol = pre.map Row.vol ++ new :: up :: (rest.map Row.vol).dropLast := by
            rw [hw1, mapFills_vols, hw, List.map_append, List.map_cons, List.map_cons, List.map_dropLast]
          have hposw : ∀ (i : ℕ) (q : Row B64 s), j + 1 ≤ i → i ≤ m → w[i]? = some q → Pos q.vol := by
            intro i q h1 h2 hq
            by_cases hij : i = j + 1
            · subst hij
              rw [hwj] at hq
              rw [← Option.some.inj hq]; exact u1
            · exact h.pos q (mem_take_of (hwg i q (by omega) hq) (by omega))
          have hgw : Fl ops.filled w1 := by
            refine Fl.mapFills (hg.of fun q hq => ?_) _
            rw [hw] at hq
            left
            rcases List.mem_append.1 hq with hq | hq
            · exact ⟨q, List.mem_of_mem_take hq, rfl⟩
            · have hrm : r ∈ wm := List.mem_iff_getElem?.2 ⟨j, hr⟩
              rcases List.mem_cons.1 hq with rfl | hq
              · exact ⟨r, hrm, rfl⟩
              · rcases List.mem_cons.1 hq with rfl | hq
                · exact ⟨r, hrm, rfl⟩
                · exact ⟨q, List.mem_of_mem_drop (List.mem_of_mem_dropLast hq), rfl⟩
          have hnil1 : ∀ q ∈ w1.drop (m + 1), NilRow q := by
            intro q hq
            obtain ⟨i, hi⟩ := List.mem_iff_getElem?.1 hq
            rw [List.getElem?_drop] at hi
            obtain ⟨q', hq', -, e, -⟩ := mapFills_get _ _ _ _ hi
            rw [← e (by omega)]
            exact h.fills q' (mem_drop_of (hwg _ _ (by omega) hq') (by omega))
          have hfill1 : ∀ i < j + 1, ∀ q, w1[i]? = some q → ∀ a, B64.eq (q.fill a) ops.filled = true := by
            intro i hi q hq a
            obtain ⟨q', hq', -, -, e⟩ := mapFills_get _ _ _ _ hq
            rw [e (by omega)]
            rcases hg with e1 | ⟨e0, -⟩
            · rw [e1]; exact one_eq_one
            · rw [e0]; exact zero_eq_zero
          have hkk : (j + 1 ≤ indexNotFilled D ops.filled w1 ∧ indexNotFilled D ops.filled w1 ≤ m + 1) ∨
              (indexNotFilled D ops.filled w1 = 0 ∧ ∀ r ∈ w1.take (m + 1), Pos r.vol) := by
            refine Or.inl ⟨?_, indexNotFilled_le_block (m := m + 1) (by omega) hnil1 hgw⟩
            rcases hU with e1 | hU
            · refine indexNotFilled_ge (i := m + 1) hfill1 (List.getElem?_eq_getElem (by omega)) fun a => ?_
              rw [e1]
              exact (hnil1 _ (mem_drop_of (List.getElem?_eq_getElem (by omega)) le_rfl) a).ne_one
            · refine indexNotFilled_ge (i := j + 1) hfill1 (List.getElem?_eq_getElem (by omega)) fun a => ?_
              obtain ⟨q', hq', -, e, -⟩ := mapFills_get _ _ _ _ (List.getElem?_eq_getElem (show j + 1 < w1.length by omega))
              rw [← e (by omega)]
              rw [hwj] at hq'
              rw [← Option.some.inj hq']
              exact hU r (mem_take_of hr hjm) a
          have hshape := collapseCopy_shape (fl := ops.filled) (m := m + 1) (j := j + 1) (B := B + err) (wm := w1) (init := w) (by omega) (by omega)
            (by omega) (by omega)
            (by
              intro q hq
              obtain ⟨i, hi⟩ := List.mem_iff_getElem?.1 hq
              rw [List.getElem?_drop] at hi
              obtain ⟨q', hq', e, -, -⟩ := mapFills_get _ _ _ _ hi
              rw [← e]
              exact h.zero q' (mem_drop_of (hwg _ _ (by omega) hq') (by omega)))
            (by
              intro q hq
              obtain ⟨i, hi⟩ := List.mem_iff_getElem?.1 hq
              rw [List.getElem?_drop] at hi
              obtain ⟨q', hq', -, e, -⟩ := mapFills_get _ _ _ _ hi
              rw [← e (by omega)]
              exact h.fills q' (mem_drop_of (hwg _ _ (by omega) hq') (by omega)))
            (by
              intro q hq
              obtain ⟨i, hi⟩ := List.mem_iff_getElem?.1 hq
              rw [List.getElem?_drop] at hi
              exact h.fills q (mem_drop_of (hwg _ _ (by omega) hi) (by omega)))
            hkk
            (by
              intro k hk hk'
              have e : volumeFilled D k w1 = B64.sumLeft (pre.map Row.vol ++ new ::
                  (((⟨up, r.fill⟩ : Row B64 s) :: rest.dropLast).take (k - (j + 1))).map Row.vol) := by
                unfold volumeFilled
                rw [List.map_take, hw1, mapFills_vols, ← List.map_take, hw]
                refine congrArg B64.sumLeft ?_
                rw [List.take_append, List.take_of_length_le (by omega), hpl,
                  show k - j = (k - (j + 1)) + 1 by omega, List.take_succ_cons]
                simp
              rw [e]
              refine sum_pos hpp ?_ u2 (by simpa using u3)
              intro u hu
              obtain ⟨q, hq, rfl⟩ := List.mem_map.1 hu
              obtain ⟨i, hi⟩ := List.mem_iff_getElem?.1 hq
              rw [List.getElem?_take] at hi
              split at hi
              · refine hposw (j + 1 + i) q (by omega) (by omega) ?_
                rw [hw, List.getElem?_append_right (by omega), hpl, show j + 1 + i - j = i + 1 by omega,
                  List.getElem?_cons_succ]
                exact hi
              · cases hi)
            (by
              intro q hq
              obtain ⟨i, hi⟩ := List.mem_iff_getElem?.1 hq
              rw [List.getElem?_drop, List.getElem?_take] at hi
              split at hi
              · obtain ⟨q', hq', e, -, -⟩ := mapFills_get _ _ _ _ hi
                rw [← e]
                exact hposw _ _ (by omega) (by omega) hq'
              · cases hi)
            (by rw [hw1v]; exact hws) (fun i _ => by rw [hw1v]; exact hwb i) (by linarith)
          obtain ⟨c1, c2, cs, m', hm', hm1', c3, c4⟩ := hshape
          have := finish_formed hops rfl nFree (ops.trapped wm) hgw.collapseCopy (M := m + 1) (m := m')
            (by omega) (by omega) (by omega) c1 c2 c3 (by rw [max_eq_left hm1']; exact c4) cs (by linarith) (by linarith)
          exact Sat.mono this fun r hr => ⟨hr.1.trans hw1l, hr.2.1, hr.2.2.1.mono (by linarith), hr.2.2.2⟩

theorem icStep_formed [NeZero s] {m : ℕ} {wm : WM B64 s} {ops : ICOps B64 s} {fill : B64 → B64} {nFree : B64}
    {x B : ℚ} (hops : OpsOk ops) (hg : Fl ops.filled (icRelease D ops wm).2)
    (hU : ops.filled = B64.one ∨ ∀ r ∈ (icRelease D ops wm).2.take m, ∀ a, B64.eq (r.fill a) ops.filled = false)
    (h : Formed m wm) (hm : m + 1 < wm.length) (hS : VolSized B (wm.map Row.vol)) (hB1 : 1 ≤ B) (hB2 : B ≤ 2)
    (hn : ((m + 1 : ℕ) : ℚ) * err ≤ 1 / 2)
    (hx : Val (fill (B64.add nFree (icRelease D ops wm).1)) x) (x0 : 0 ≤ x) (x1 : x ≤ 1)
    (hf : 0 < x → B64.lt B64.zero (B64.add nFree (icRelease D ops wm).1) = true) :
    Sat (fun _ => True) (fun r => r.2.length = wm.length ∧ (∃ m' ≤ m + 1, Formed m' r.2) ∧
        VolSized (B + 3 * ((m + 1 : ℕ) * err)) (r.2.map Row.vol) ∧ Fl ops.filled r.2)
      (icStep D ops fill nFree wm) := by
  unfold icStep
  have e : (icRelease D ops wm).2 = mapFills 0 (maxWatermarkIndex D wm + 1).toNat ops.release wm := rfl
  have hF := h.mapFills (n := (maxWatermarkIndex D wm + 1).toNat) (by rw [h.maxIndex (by omega)]; omega) ops.release
  have hl := mapFills_length 0 (maxWatermarkIndex D wm + 1).toNat ops.release wm
  have hv := mapFills_vols 0 (maxWatermarkIndex D wm + 1).toNat ops.release wm
  rw [← e] at hF hl hv
  generalize icRelease D ops wm = rel at hF hl hv hx hf hg hU
  obtain ⟨rel, w⟩ := rel
  simp only at hF hl hv hx hf hg hU ⊢
  refine Sat.bind (icCapture_formed hops hg hU hF (by rw [hl]; exact hm) (B := B) (by rw [hv]; exact hS) hB1 hB2
    hn hx x0 x1 hf) ?_
  rintro ⟨c, w'⟩ ⟨h1, h2⟩
  exact ⟨h1.trans hl, h2⟩

end Arctic.Fp
