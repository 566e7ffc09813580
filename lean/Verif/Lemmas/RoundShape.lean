import Verif.Lemmas.RoundCapture

/-!
# The array after capture in double precision
-/

set_option linter.unusedSectionVars false
set_option linter.unusedVariables false

namespace Arctic.Fp

open B64

variable {s : ℕ} {sum : List B64 → B64}

/-- What capture of a cloud of height `x` may leave: the array `w'` stands for the profile of `w` filled up to `x`, up to a
displacement of heights by `(3 * m + 8) * err`. -/
structure Shaped (m : ℕ) (B x : ℚ) (w w' : WM B64 s) : Prop where
  len : w'.length = w.length
  tidy : ∃ m', 1 ≤ m' ∧ m' ≤ m + 1 ∧ Tidy m' w' ∧ vsum (w'.map Row.vol) + m' * err ≤ B + 9 * err
  levy : ∀ j, Levy (((3 * m + 8 : ℕ) * err : ℚ) : ℝ) 0 (raised (x : ℝ) fun d => occ (toReal w) d j) fun d => occ (toReal w') d j
  idx : indexNotFilled D B64.one w' ≤ 1

theorem ratCast_abs_le {a b : ℚ} (h : |a| ≤ b) : |(a : ℝ)| ≤ (b : ℝ) := by exact_mod_cast h

theorem Tidy.below {m : ℕ} {w : WM B64 s} (h : Tidy m w) (hlt : ∀ r ∈ w, ∀ j, (r.fill j).val < 1) {r : Row B64 s} (hr : r ∈ w) (j : Fin s) :
    B64.eq (r.fill j) B64.one = false := by
  obtain ⟨q, hq, -⟩ := h.frac r hr j
  have := hlt r hr j
  rw [hq.val] at this
  exact eq_one_false hq this

theorem zeroRow_below (j : Fin s) : B64.eq ((zeroRow D s).fill j) B64.one = false := eq_one_false val_zero (by norm_num)

theorem vsum_zeroRows (n : ℕ) : vsum ((List.replicate n (zeroRow D s)).map Row.vol) = 0 := by
  refine vsum_zeros fun v hv => ?_
  rw [List.map_replicate] at hv
  rw [List.eq_of_mem_replicate hv]
  exact val_zero

theorem rl_zero {x : B64} (h : Val x 0) : rl x = 0 := by rw [rl_val h]; norm_num

theorem Tidy.unfilled {m : ℕ} {w : WM B64 s} (h : Tidy m w) {k : ℕ} (hk : m ≤ k) (j : Fin s) :
    ∀ r ∈ toReal (w.drop k), r.fill j = 0 := by
  intro r hr
  obtain ⟨q, hq, rfl⟩ := List.mem_map.1 hr
  obtain ⟨i, hi⟩ := List.mem_iff_getElem?.1 hq
  rw [List.getElem?_drop] at hi
  exact rl_zero ((h.zero q (mem_drop_of hi (by omega))).2 j)

theorem zeros_unfilled (n : ℕ) (j : Fin s) : ∀ r ∈ toReal (List.replicate n (zeroRow D s)), r.fill j = 0 := by
  intro r hr
  obtain ⟨q, hq, rfl⟩ := List.mem_map.1 hr
  rw [List.eq_of_mem_replicate hq]
  exact rl_zero val_zero

theorem rl_one : rl B64.one = 1 := by rw [rl_val val_one]; norm_num

/-- The cloud ends at a watermark. -/
theorem shaped_boundary [NeZero s] {m j : ℕ} {B x : ℚ} {w : WM B64 s} {X : B64} (h : Tidy m w) (hlt : ∀ r ∈ w, ∀ j, (r.fill j).val < 1)
    (hj : j < m) (hm : m + 1 < w.length) (hB : vsum (w.map Row.vol) + m * err ≤ B) {Xq : ℚ} (hX : Val X Xq) (X0 : 0 < Xq)
    (h1 : |Xq - x| ≤ 2 * ((j + 1 : ℕ) * err)) (hT : |Xq - vsum ((w.map Row.vol).take (j + 1))| ≤ (j + 1 : ℕ) * err) :
    Shaped m B x w ((⟨X, fun _ => B64.one⟩ : Row B64 s) :: w.drop (j + 1) ++ List.replicate (j + 1 - 1) (zeroRow D s)) := by
  have he := err_pos
  have hmj : ((m - (j + 1) + 1 : ℕ) : ℚ) = m - j := by
    rw [show m - (j + 1) + 1 = m - j by omega, Nat.cast_sub (by omega)]
  have hjm : 2 * (((j + 1 : ℕ) : ℚ) * err) ≤ ((3 * m + 8 : ℕ) : ℚ) * err := by
    rw [← mul_assoc]
    exact mul_le_mul_of_nonneg_right (by exact_mod_cast (by omega : 2 * (j + 1) ≤ 3 * m + 8)) he.le
  have hj0 : 0 ≤ ((j + 1 : ℕ) : ℚ) * err := mul_nonneg (Nat.cast_nonneg _) he.le
  have hall : toReal w = toReal (w.take (j + 1)) ++ toReal (w.drop (j + 1)) := by
    rw [← toReal_append, List.take_append_drop]
  refine ⟨?_, ⟨m - (j + 1) + 1, by omega, by omega, ?_, ?_⟩, ?_, ?_⟩
  · simp only [List.length_append, List.length_cons, List.length_drop, List.length_replicate]
    omega
  · rw [List.cons_append]
    exact ((h.drop (j + 1)).zeros (j + 1 - 1)).full X ⟨Xq, hX, X0⟩
  · rw [List.map_append, vsum_append, vsum_zeroRows, List.map_cons, vsum_cons, hX.val, hmj]
    have e : vsum (w.map Row.vol) = vsum ((w.map Row.vol).take (j + 1)) + vsum ((w.drop (j + 1)).map Row.vol) := by
      rw [List.map_drop, ← vsum_append, List.take_append_drop]
    rw [abs_le] at hT
    have : ((j + 1 : ℕ) : ℚ) * err = j * err + err := by push_cast; ring
    nlinarith
  · intro a
    have key := levy_boundary (P := toReal (w.take (j + 1))) (rest := toReal (w.drop (j + 1))) (x := (x : ℝ)) (X := (Xq : ℝ))
      (δ := (((3 * m + 8 : ℕ) * err : ℚ) : ℝ))
      (fun r hr => h.realVol r (by rw [hall]; exact List.mem_append_left _ hr))
      (by rw [← hall]; exact h.realFrac) (by rw [← hall]; exact h.sinking)
      (by
        have := ratCast_abs_le (h1.trans hjm)
        push_cast at this ⊢
        exact this)
      (by
        rw [volSum_toReal, List.map_take]
        have := ratCast_abs_le (hT.trans (le_trans (by linarith) hjm))
        push_cast at this ⊢
        exact this) a (realRow ⟨X, fun _ => B64.one⟩) (rl_val hX) rl_one
    rw [← hall] at key
    intro d hd
    have := key d hd
    beta_reduce
    rw [List.cons_append, toReal_cons, toReal_append]
    rw [← List.cons_append, occ_append_unfilled _ _ _ (zeros_unfilled _ _)]
    exact this
  · rw [List.cons_append]
    refine front_index (by intro e; have := congrArg List.length e; simp at this; omega) ?_
    intro r hr a
    rcases List.mem_append.1 hr with hr | hr
    · exact h.below hlt (List.mem_of_mem_drop hr) a
    · rw [List.eq_of_mem_replicate hr]; exact zeroRow_below a

/-- A watermark is split. -/
theorem shaped_split [NeZero s] {m : ℕ} {B x q u Xq : ℚ} {pre rest : WM B64 s} {r : Row B64 s} {X up : B64}
    (h : Tidy m (pre ++ r :: rest)) (hlt : ∀ q ∈ pre ++ r :: rest, ∀ j, (q.fill j).val < 1)
    (hj : pre.length < m) (hm : m + 1 < (pre ++ r :: rest).length) (hB : vsum ((pre ++ r :: rest).map Row.vol) + m * err ≤ B)
    (hX : Val X Xq) (X0 : 0 < Xq) (hup : Val up u) (u0 : 0 < u) (hq : Val r.vol q)
    (hT : vsum (pre.map Row.vol) ≤ x + pre.length * err) (h1 : |Xq - x| ≤ 2 * (pre.length * err) + 4 * err)
    (h2 : |Xq + u - (vsum (pre.map Row.vol) + q)| ≤ pre.length * err + 2 * err) :
    Shaped m B x (pre ++ r :: rest) ((⟨X, fun _ => B64.one⟩ : Row B64 s) :: (⟨up, r.fill⟩ :: rest.dropLast) ++
      List.replicate pre.length (zeroRow D s)) := by
  have he := err_pos
  have hl : (pre ++ r :: rest).length = pre.length + 1 + rest.length := by simp; omega
  have hp0 : 0 ≤ (pre.length : ℚ) * err := mul_nonneg (Nat.cast_nonneg _) he.le
  have hjm : 3 * ((pre.length : ℚ) * err) + 8 * err ≤ ((3 * m + 8 : ℕ) : ℚ) * err := by
    rw [← mul_assoc, ← add_mul]
    exact mul_le_mul_of_nonneg_right (by exact_mod_cast (by omega : 3 * pre.length + 8 ≤ 3 * m + 8)) he.le
  have hdrop : (pre ++ r :: rest).drop (pre.length + 1) = rest := by
    rw [← List.drop_drop, List.drop_left]; rfl
  have hrest : Tidy (m - (pre.length + 1)) rest := by
    have := h.drop (pre.length + 1)
    rwa [hdrop] at this
  have hrl : m - (pre.length + 1) < rest.length := by omega
  have hrm : r ∈ pre ++ r :: rest := by simp
  have hpw := (List.pairwise_cons.1 (List.pairwise_append.1 h.sink).2.1).1
  have hmj : ((m - (pre.length + 1) + 1 + 1 : ℕ) : ℚ) = m - pre.length + 1 := by
    rw [show m - (pre.length + 1) + 1 + 1 = m - pre.length + 1 by omega, Nat.cast_add, Nat.cast_sub (by omega)]
    norm_num
  refine ⟨?_, ⟨m - (pre.length + 1) + 1 + 1, by omega, by omega, ?_, ?_⟩, ?_, ?_⟩
  · simp only [List.length_append, List.length_cons, List.length_dropLast, List.length_replicate]
    omega
  · rw [List.cons_append]
    exact (((hrest.dropLast hrl).cons ⟨up, r.fill⟩ ⟨u, hup, u0⟩ (h.frac r hrm)
      (fun r' hr' j => hpw r' (List.mem_of_mem_dropLast hr') j)).zeros _).full X ⟨Xq, hX, X0⟩
  · rw [List.map_append, vsum_append, vsum_zeroRows, List.map_cons, vsum_cons, List.map_cons, vsum_cons, hX.val, hup.val, hmj]
    have e : vsum ((pre ++ r :: rest).map Row.vol) = vsum (pre.map Row.vol) + (q + vsum (rest.map Row.vol)) := by
      rw [List.map_append, vsum_append, List.map_cons, vsum_cons, hq.val]
    have hs : vsum (rest.dropLast.map Row.vol) ≤ vsum (rest.map Row.vol) := by
      refine vsum_sublist ((List.dropLast_sublist rest).map _) fun v hv => ?_
      obtain ⟨r', hr', rfl⟩ := List.mem_map.1 hv
      exact hrest.vols r' hr'
    rw [abs_le] at h2
    nlinarith
  · intro a
    have key := levy_split (P := toReal pre) (rest := toReal rest) (r := realRow r) (x := (x : ℝ)) (X := (Xq : ℝ)) (u := (u : ℝ))
      (δ := (((3 * m + 8 : ℕ) * err : ℚ) : ℝ))
      (fun r hr => h.realVol r (by rw [toReal_append]; exact List.mem_append_left _ hr))
      (h.realVol _ (by rw [toReal_append, toReal_cons]; simp))
      (by rw [← toReal_cons, ← toReal_append]; exact h.realFrac) (by rw [← toReal_cons, ← toReal_append]; exact h.sinking)
      (by
        have : |Xq - x| ≤ (3 * m + 8 : ℕ) * err := by linarith
        have := ratCast_abs_le this
        push_cast at this ⊢
        exact this)
      (by
        rw [volSum_toReal]
        have : vsum (pre.map Row.vol) ≤ Xq + (3 * m + 8 : ℕ) * err := by
          rw [abs_le] at h1
          linarith
        exact_mod_cast this)
      (by
        have hrv : (realRow r).vol = (q : ℝ) := rl_val hq
        rw [volSum_toReal, hrv]
        have : |Xq + u - (vsum (pre.map Row.vol) + q)| ≤ (3 * m + 8 : ℕ) * err := by
          rw [abs_le] at h2 ⊢
          constructor <;> linarith
        have := ratCast_abs_le this
        push_cast at this ⊢
        exact this)
      a (realRow ⟨X, fun _ => B64.one⟩) (rl_val hX) rl_one
    rw [← toReal_cons, ← toReal_append] at key
    have hlast : ∀ d, occ (realRow ⟨X, fun _ => B64.one⟩ :: ⟨(u : ℝ), (realRow r).fill⟩ :: toReal rest) d a =
        occ (toReal ((⟨X, fun _ => B64.one⟩ : Row B64 s) :: (⟨up, r.fill⟩ :: rest.dropLast) ++
          List.replicate pre.length (zeroRow D s))) d a := by
      intro d
      have hne : rest ≠ [] := by intro e; rw [e] at hrl; simp at hrl
      have hu' : (⟨(u : ℝ), (realRow r).fill⟩ : Row ℝ s) = realRow ⟨up, r.fill⟩ := by
        unfold realRow
        simp only
        rw [rl_val hup]
      rw [hu', toReal_append, occ_append_unfilled _ _ _ (zeros_unfilled _ _), toReal_cons, toReal_cons]
      conv_lhs => rw [← List.dropLast_append_getLast hne, toReal_append]
      rw [← List.cons_append, ← List.cons_append]
      refine occ_append_unfilled _ _ _ ?_ _
      intro r' hr'
      obtain ⟨q', hq', rfl⟩ := List.mem_map.1 hr'
      rw [List.mem_singleton.1 hq']
      refine rl_zero ((hrest.zero _ ?_).2 a)
      refine mem_drop_of (i := rest.length - 1) ?_ (by omega)
      rw [List.getLast_eq_getElem, List.getElem?_eq_getElem]
    intro d hd
    have := key d hd
    simp only [hlast] at this
    exact this
  · rw [List.cons_append]
    refine front_index (by simp) ?_
    intro r' hr' a
    rcases List.mem_append.1 hr' with hr' | hr'
    · rcases List.mem_cons.1 hr' with rfl | hr'
      · exact h.below hlt hrm a
      · exact h.below hlt (by simp [List.mem_of_mem_dropLast hr']) a
    · rw [List.eq_of_mem_replicate hr']; exact zeroRow_below a

/-- The cloud is above everything. -/
theorem shaped_top [NeZero s] {m : ℕ} {B x Xq : ℚ} {w : WM B64 s} {X : B64} (h : Tidy m w)
    (hm : m + 1 < w.length) (hB : 1 + 2 * (m * err) ≤ B) (hX : Val X Xq) (X0 : 0 < Xq) (x1 : x ≤ 1)
    (h1 : |Xq - x| ≤ 2 * (m * err) + 2 * err)
    (hT : vsum ((w.take m).map Row.vol) ≤ x + m * err) :
    Shaped m B x w ((⟨X, fun _ => B64.one⟩ : Row B64 s) :: w.drop (m + 1) ++ List.replicate (m + 1 - 1) (zeroRow D s)) := by
  have he := err_pos
  have hm0 : 0 ≤ (m : ℚ) * err := mul_nonneg (Nat.cast_nonneg _) he.le
  have hm8 : ((3 * m + 8 : ℕ) : ℚ) * err = 3 * (m * err) + 8 * err := by push_cast; ring
  have hall : toReal w = toReal (w.take m) ++ toReal (w.drop m) := by
    rw [← toReal_append, List.take_append_drop]
  have hd : Tidy 0 (w.drop (m + 1)) := by
    have := h.drop (m + 1)
    rwa [show m - (m + 1) = 0 by omega] at this
  refine ⟨?_, ⟨0 + 1, by omega, by omega, ?_, ?_⟩, ?_, ?_⟩
  · simp only [List.length_append, List.length_cons, List.length_drop, List.length_replicate]
    omega
  · rw [List.cons_append]
    exact (hd.zeros _).full X ⟨Xq, hX, X0⟩
  · rw [List.map_append, vsum_append, vsum_zeroRows, List.map_cons, vsum_cons, hX.val, vsum_zeros]
    · rw [abs_le] at h1
      push_cast
      linarith
    · intro v hv
      obtain ⟨r, hr, rfl⟩ := List.mem_map.1 hv
      exact (hd.zero r (by simpa using hr)).1
  · intro a
    have key := levy_top (P := toReal (w.take m)) (rest := toReal (w.drop m))
      (new := toReal (w.drop (m + 1) ++ List.replicate (m + 1 - 1) (zeroRow D s))) (x := (x : ℝ)) (X := (Xq : ℝ))
      (δ := (((3 * m + 8 : ℕ) * err : ℚ) : ℝ)) a
      (fun r hr => h.realVol r (by rw [hall]; exact List.mem_append_left _ hr))
      (by rw [← hall]; exact h.realFrac)
      (fun d => occ_append_unfilled _ _ _ (h.unfilled le_rfl a) d)
      (fun d => occ_fill_zero _ _ (by
        intro r hr
        rw [toReal_append] at hr
        rcases List.mem_append.1 hr with hr | hr
        · exact h.unfilled (by omega) a r hr
        · exact zeros_unfilled _ a r hr) d)
      (by
        have : |Xq - x| ≤ (3 * m + 8 : ℕ) * err := by rw [hm8]; linarith
        have := ratCast_abs_le this
        push_cast at this ⊢
        exact this)
      (by
        rw [volSum_toReal]
        have : vsum ((w.take m).map Row.vol) ≤ Xq + (3 * m + 8 : ℕ) * err := by
          rw [abs_le] at h1
          rw [hm8]
          linarith
        exact_mod_cast this)
      (realRow ⟨X, fun _ => B64.one⟩) (rl_val hX) rl_one
    rw [← hall] at key
    exact key
  · rw [List.cons_append]
    refine front_index (by intro e; have := congrArg List.length e; simp at this; omega) ?_
    intro r hr a
    rcases List.mem_append.1 hr with hr | hr
    · exact eq_one_false ((hd.zero r (by simpa using hr)).2 a) (by norm_num)
    · rw [List.eq_of_mem_replicate hr]; exact zeroRow_below a

theorem mapFills_drop (n : ℕ) (g : Fin s → B64 → B64) (w : WM B64 s) : (mapFills 0 n g w).drop n = w.drop n := by
  apply List.ext_getElem?
  intro i
  rw [List.getElem?_drop, List.getElem?_drop]
  cases hq : (mapFills 0 n g w)[n + i]? with
  | none =>
    rw [List.getElem?_eq_none_iff, mapFills_length] at hq
    rw [List.getElem?_eq_none_iff.2 hq]
  | some r =>
    obtain ⟨q, hq', -, e, -⟩ := mapFills_get _ _ _ _ hq
    rw [hq', e (by omega)]

theorem mapFills_one (n : ℕ) (w : WM B64 s) : ∀ i < n, ∀ r, (mapFills 0 n (fun _ _ => B64.one) w)[i]? = some r →
    ∀ a, r.fill a = B64.one := by
  intro i hi r hr a
  obtain ⟨q, hq, -, -, e⟩ := mapFills_get _ _ _ _ hr
  rw [e (by omega)]

/-- `collapse_redundant_watermarks` after the rows below the cloud are filled. -/
theorem collapse_filled [NeZero s] [AnyOrder sum] {k : ℕ} {w init : WM B64 s} (h1 : 1 ≤ k) (hk : k < w.length)
    (hn : ∀ r ∈ w.drop k, ∀ a, B64.eq (r.fill a) B64.one = false) (hv : ∀ v ∈ (w.map Row.vol).take k, ∃ q, Val v q)
    (hs : asum ((w.map Row.vol).take k) ≤ 8) (hke : (k : ℚ) * err ≤ 1) :
    ∃ X c, (collapseCopy (B64.arith sum) B64.one (mapFills 0 k (fun _ _ => B64.one) w) init).1 =
        (⟨X, fun _ => B64.one⟩ : Row B64 s) :: w.drop k ++ List.replicate (k - 1) (zeroRow D s) ∧
      Val X c ∧ |c - vsum ((w.map Row.vol).take k)| ≤ k * err := by
  have hl := mapFills_length 0 k (fun _ _ => B64.one) w
  have hi : indexNotFilled D B64.one (mapFills 0 k (fun _ _ => B64.one) w) = k := by
    refine indexNotFilled_eq (mapFills_one k w) (List.getElem?_eq_getElem (by rw [hl]; exact hk)) fun a => hn _ ?_ a
    rw [← mapFills_drop k (fun _ _ => B64.one) w]
    exact mem_drop_of (List.getElem?_eq_getElem (by rw [hl]; exact hk)) le_rfl
  have := collapseCopy_front (sum := sum) (init := init) hi h1 (by rw [hl]; omega) (mapFills_one k w 0 (by omega))
    (by rw [mapFills_vols]; exact hv) (by rw [mapFills_vols]; exact hs) hke
  rwa [mapFills_drop, mapFills_vols] at this

theorem first_plain {l : WM B64 s} {r0 : Row B64 s} {dens p : Fin s → B64} {nFree cloud : B64} {N a c1 : ℚ} {init : WM B64 s}
    (ha : Val nFree a) (a0 : 0 < a)
    (h1 : Val (cyNTrapped (B64.arith sum) ((⟨cloud, fun _ => B64.one⟩ : Row B64 s) :: l) dens) c1) (h0 : 0 ≤ c1) (hle : c1 ≤ a) :
    ∃ cap, icFirstCapture (B64.arith sum) (instantOps (B64.arith sum) dens p) nFree cloud init (r0 :: l) =
      .ok (cap, (⟨cloud, fun _ => B64.one⟩ : Row B64 s) :: l) ∧ Val cap c1 := by
  set w' := (⟨cloud, fun _ => B64.one⟩ : Row B64 s) :: l with hw'
  unfold icFirstCapture
  simp only
  change ∃ cap, (if (B64.arith sum).eq (cyNTrapped (B64.arith sum) w' dens) (B64.arith sum).zero = true then _ else _) = _ ∧ _
  have heq : (B64.arith sum).eq (cyNTrapped (B64.arith sum) w' dens) (B64.arith sum).zero = decide (c1 = 0) := val_eq h1 val_zero
  rw [heq]
  by_cases he : c1 = 0
  · rw [if_pos (by simpa using he), he]
    exact ⟨_, rfl, val_zero⟩
  · rw [if_neg (by simpa using he)]
    have hpy : pyDiv (B64.arith sum) nFree (cyNTrapped (B64.arith sum) w' dens) = .ok ((B64.arith sum).div nFree (cyNTrapped (B64.arith sum) w' dens)) := by
      unfold pyDiv
      rw [if_neg]
      rw [heq]
      simpa using he
    refine ⟨cyNTrapped (B64.arith sum) w' dens, ?_, h1⟩
    change (pyDiv (B64.arith sum) nFree (cyNTrapped (B64.arith sum) w' dens)).bind _ = _
    rw [hpy]
    simp only [Except.bind]
    rw [if_neg]
    · rfl
    · have c0 : 0 < c1 := lt_of_le_of_ne h0 (Ne.symm he)
      have e : (B64.arith sum).div nFree (cyNTrapped (B64.arith sum) w' dens) = pack (a / c1) := div_val ha h1 a0.ne' he
      rw [e]
      have := lt_pack_one (q := a / c1) (by rw [le_div_iff₀ c0]; linarith)
      change ¬ (B64.lt (pack (a / c1)) B64.one = true)
      rw [this]
      simp

/-- Capture by traps that capture instantly, when the electrons suffice. -/
theorem capture_shape [NeZero s] [AnyOrder sum] {m : ℕ} {w : WM B64 s} {dens p : Fin s → B64} {fill : B64 → B64} {nFree : B64} {a x B : ℚ}
    (h : Tidy m w) (hlt : ∀ r ∈ w, ∀ j, (r.fill j).val < 1) (hm : m + 1 < w.length)
    (hB : vsum (w.map Row.vol) + m * err ≤ B) (hB1 : 1 + 2 * (m * err) ≤ B) (hB2 : B ≤ 2) (hn : ((m + 1 : ℕ) : ℚ) * err ≤ 1 / 2)
    (hx : Val (fill nFree) x) (x0 : ((3 * m + 8 : ℕ) : ℚ) * err < x) (x1 : x ≤ 1) (ha : Val nFree a) (a0 : 0 < a) :
    ∃ w', Shaped m B x w w' ∧ ∀ N c0 c1 : ℚ, 1 ≤ N → N ≤ big → Val (cyNTrapped D w dens) c0 → Val (cyNTrapped D w' dens) c1 →
      0 ≤ c1 → (m = 0 → c0 = 0) → c1 - c0 ≤ a → |c1 - c0| ≤ 16 * N →
      ∃ cap q, icCapture (B64.arith sum) (instantOps (B64.arith sum) dens p) fill nFree w = .ok (cap, w') ∧ Val cap q ∧ |q - (c1 - c0)| ≤ N * err := by
  have hep := err_pos
  have hep8 : err ≤ 1 / 8 := by unfold err; norm_num
  have hme : ((m + 1 : ℕ) : ℚ) * err = m * err + err := by push_cast; ring
  have hm0 : 0 ≤ (m : ℚ) * err := mul_nonneg (Nat.cast_nonneg _) hep.le
  have hn' : (m : ℚ) * err ≤ 1 := by linarith
  have hm8 : ((3 * m + 8 : ℕ) : ℚ) * err = 3 * (m * err) + 8 * err := by push_cast; ring
  rw [hm8] at x0
  have xm := x0
  replace x0 : 0 < x := by linarith
  have hv2 : vsum (w.map Row.vol) ≤ 2 := by linarith
  have hS := h.sized hv2
  have hs : SumsOk w := h.formed.sumsOk hS (by norm_num) hn'
  have hlen : m < w.length := by omega
  have hmax : maxWatermarkIndex (B64.arith sum) w = (m : ℤ) - 1 := h.formed.maxIndex (by omega)
  have hnn := h.formed.nonneg hS
  have hpos : (B64.arith sum).lt (B64.arith sum).zero nFree = true := pos_of_val ha a0
  rcases Nat.eq_zero_or_pos m with rfl | hm1
  · -- first capture
    obtain ⟨r0, l, rfl⟩ := List.exists_cons_of_ne_nil (l := w) (by intro e; rw [e] at hm; simp at hm)
    refine ⟨_, shaped_top h (by omega) hB1 hx x0 x1 (by rw [sub_self, abs_zero]; linarith) (by simp; exact x0.le), ?_⟩
    intro N c0 c1 hN1 hN2 h0 h1 hc1 hc0 hle hb
    rw [hc0 rfl, sub_zero] at hle ⊢
    simp only [List.drop_succ_cons, List.drop_zero, Nat.sub_self, List.replicate_zero, List.append_nil] at h1 ⊢
    obtain ⟨cap, e, hv⟩ := first_plain (r0 := r0) (p := p) (init := r0 :: l) (N := N) ha a0 h1 hc1 hle
    refine ⟨cap, c1, ?_, hv, ?_⟩
    · unfold icCapture
      simp only
      rw [hmax, if_pos ⟨by norm_num, hpos⟩]
      exact e
    · rw [sub_self, abs_zero]
      exact mul_nonneg (by linarith) hep.le
  have hfirst : ¬ (((m : ℤ) - 1 = -1) ∧ (B64.arith sum).lt (B64.arith sum).zero nFree = true) := by
    rintro ⟨h1, -⟩; omega
  rcases index_formed h.formed hlen hm1 hs hx x0 with ⟨hi, c, hc, hcx, c0⟩ | ⟨j, hjm, hi, ⟨t, ht, htx⟩, c, hc, hxc⟩
  · -- a new watermark on top
    obtain ⟨c', hc', hce⟩ := h.total_near hv2 hn' le_rfl
    obtain ⟨r, l, e⟩ := List.exists_cons_of_ne_nil (l := w) (by intro e; rw [e] at hm; simp at hm)
    have hrp := h.formed.pos r (mem_take_of (i := 0) (by rw [e]; rfl) hm1)
    have hdz : ∀ v ∈ (w.map Row.vol).drop m, Val v 0 := by
      intro v hv
      rw [← List.map_drop] at hv
      obtain ⟨q, hq, rfl⟩ := List.mem_map.1 hv
      exact (h.zero q hq).1
    have hcc : c = c' := by
      have h1 : B64.sumLeft (w.map Row.vol) = total D (w.map Row.vol) := by
        rw [e, List.map_cons, sumLeft_total hrp]
      rw [h1, ← List.take_append_drop m (w.map Row.vol)] at hc
      unfold total at hc hc'
      rw [List.foldl_append] at hc
      exact hc.unique (foldl_zeros hdz hc')
    subst hcc
    have hvt : vsum (w.map Row.vol) = vsum ((w.map Row.vol).take m) := by
      conv_lhs => rw [← List.take_append_drop m (w.map Row.vol)]
      rw [vsum_append, vsum_zeros hdz, add_zero]
    have hV0 : 0 ≤ vsum (w.map Row.vol) := vsum_nonneg hnn
    obtain ⟨d, hd, hde⟩ := sum_near (sum := sum) (l := w.map Row.vol) (k := m) hS.1 (by rw [asum_of_nonneg hnn]; linarith) (by
      rw [← List.take_append_drop m (w.map Row.vol), nonzero_append, nonzero_zeros hdz]
      refine (nonzero_le _).trans ?_
      rw [List.length_take]
      omega) hn'
    rw [abs_le] at hde
    obtain ⟨r1, r2⟩ := round_err16 (q := x - d) (by rw [abs_le]; constructor <;> linarith)
    have hV : Val ((B64.arith sum).sub (fill nFree) ((B64.arith sum).sum (w.map Row.vol))) (B64.round (x - d)) := val_sub hx hd r2
    set v := (B64.arith sum).sub (fill nFree) ((B64.arith sum).sum (w.map Row.vol)) with hv
    rw [abs_le] at r1
    -- the array before it is collapsed
    set w0 := setVol w ((m : ℕ) : ℤ).toNat v with hw0
    have hw0l : w0.length = w.length := setVol_length _ _ _
    have hw0v : w0.map Row.vol = (w.map Row.vol).set m v := by
      rw [hw0]
      apply List.ext_getElem?
      intro i
      rw [List.getElem?_map, List.getElem?_set, List.getElem?_map]
      unfold setVol
      rw [List.getElem?_modify, List.length_map]
      by_cases him : m = i
      · subst him
        rw [if_pos rfl, if_pos (by omega), List.getElem?_eq_getElem (show m < w.length by omega)]
        simp
      · rw [if_neg him]
        have : ¬ ((m : ℕ) : ℤ).toNat = i := by omega
        simp [him]
    have hw0d : w0.drop (m + 1) = w.drop (m + 1) := by
      rw [hw0]
      unfold setVol
      apply List.ext_getElem?
      intro i
      rw [List.getElem?_drop, List.getElem?_drop, List.getElem?_modify]
      have : ¬ ((m : ℕ) : ℤ).toNat = m + 1 + i := by omega
      simp only [this, if_false]
      simp
    have hvs : (w0.map Row.vol).take (m + 1) = (w.map Row.vol).take m ++ [v] := by
      rw [hw0v, List.take_add_one, List.getElem?_set_self (by simpa using hlen), List.take_set_of_le le_rfl]
      rfl
    have htn : ∀ v ∈ (w.map Row.vol).take m, ∃ q, Val v q ∧ 0 ≤ q := fun v hv => hnn v (List.mem_of_mem_take hv)
    obtain ⟨X, Xq, hcol, hX, hXe⟩ := collapse_filled (sum := sum) (k := m + 1) (w := w0) (init := w0) (by omega) (by omega) (by
      rw [hw0d]
      intro r hr a
      exact h.below hlt (List.mem_of_mem_drop hr) a) (by
      rw [hvs]
      intro v' hv'
      rcases List.mem_append.1 hv' with hv' | hv'
      · obtain ⟨q, hq, -⟩ := htn v' hv'
        exact ⟨q, hq⟩
      · rw [List.mem_singleton.1 hv']
        exact ⟨_, hV⟩) (by
      rw [hvs, asum_append, asum_of_nonneg htn, asum_cons, asum_nil, hV.val, ← hvt]
      have : |B64.round (x - d)| ≤ 5 := by rw [abs_le]; constructor <;> linarith
      linarith) (by linarith)
    rw [hvs, vsum_append, vsum_cons, vsum_nil, hV.val, ← hvt, hme, abs_le] at hXe
    rw [hw0d] at hcol
    have h1X : |Xq - x| ≤ 2 * (m * err) + 2 * err := by rw [abs_le]; constructor <;> linarith
    have hsh : Shaped m B x w _ := shaped_top h hm hB1 hX (by rw [abs_le] at h1X; linarith) x1 h1X
      (by
        rw [List.map_take]
        rw [abs_le] at hce
        linarith)
    refine ⟨_, hsh, ?_⟩
    intro N c0 c1 hN1 hN2 h0 h1 hc1 hc0 hle hb
    have := finish_plain (p := p) hcol hsh.idx hN1 hN2 ha a0 h0 h1 hle hb
    unfold icCapture
    simp only
    rw [hmax, if_neg hfirst, watermarkIndexAboveCloud_sum, hi, if_neg (by omega)]
    unfold newTopWatermark
    rw [if_pos ⟨by omega, by omega⟩]
    exact this
  · by_cases hin : cyValueInCumsum D (fill nFree) (w.map Row.vol) = true
    · -- the cloud ends at a watermark
      obtain ⟨i, hix⟩ := in_cumsum h hm1 hs hx hin
      have hij : j < i := by
        by_contra hc'
        have := totals_mono h (not_lt.1 hc') hix ht
        linarith
      have hcx : c = x := le_antisymm (totals_mono h (by omega) hc hix) hxc
      subst hcx
      have hje : ((j + 1 : ℕ) : ℚ) * err ≤ m * err := mul_le_mul_of_nonneg_right (by exact_mod_cast hjm) hep.le
      have htn : ∀ v ∈ (w.map Row.vol).take (j + 1), ∃ q, Val v q ∧ 0 ≤ q := fun v hv => hnn v (List.mem_of_mem_take hv)
      obtain ⟨X, Xq, hcol, hX, hXe⟩ := collapse_filled (sum := sum) (k := j + 1) (w := w) (init := w) (by omega) (by omega)
        (fun r hr a => h.below hlt (List.mem_of_mem_drop hr) a) (fun v hv => (htn v hv).imp fun _ h => h.1)
        (by
          rw [asum_of_nonneg htn]
          have := vsum_sublist (List.take_sublist (j + 1) (w.map Row.vol)) hnn
          linarith) (by linarith)
      obtain ⟨c', hc', hce⟩ := h.total_near hv2 hn' (i := j + 1) (by omega)
      rw [hc'.unique hc] at hce
      have h1X : |Xq - c| ≤ 2 * ((j + 1 : ℕ) * err) := by
        rw [abs_le] at hce hXe ⊢
        constructor <;> linarith
      have hsh : Shaped m B c w _ := shaped_boundary h hlt hjm hm hB hX (by rw [abs_le] at h1X; linarith) h1X hXe
      refine ⟨_, hsh, ?_⟩
      intro N c0 c1 hN1 hN2 h0 h1 hc1 hc0 hle hb
      have := finish_plain (p := p) hcol hsh.idx hN1 hN2 ha a0 h0 h1 hle hb
      unfold icCapture
      simp only
      rw [hmax, if_neg hfirst, watermarkIndexAboveCloud_sum, hi, if_pos (by omega)]
      unfold splitAtCloud
      rw [if_neg (fun hc => hc.2 (by rw [cyValueInCumsum_sum]; exact hin))]
      exact this
    · -- the watermark is split
      have hr := List.getElem?_eq_getElem (show j < w.length by omega)
      generalize w[j]'(by omega) = r at hr
      obtain ⟨pre, rest, ew, hpl⟩ : ∃ pre rest, w = pre ++ r :: rest ∧ pre.length = j := by
        refine ⟨w.take j, w.drop (j + 1), ?_, by rw [List.length_take]; omega⟩
        conv_lhs => rw [← List.take_append_drop j w]
        congr 1
        rw [List.drop_eq_getElem_cons (by omega)]
        congr 1
        rw [List.getElem?_eq_getElem (by omega)] at hr
        injection hr
      have hne := not_in_cumsum h.formed hlen hm1 hx (by simpa using hin) j hc
      obtain ⟨t', ht', hte⟩ := h.total_near hv2 hn' (i := j) (by omega)
      rw [ht'.unique ht] at hte
      have tb : t ≤ big := by obtain ⟨t2, ht2, tb⟩ := hs j; rw [ht.unique ht2]; exact tb
      have cb : c ≤ big := by obtain ⟨t2, ht2, tb⟩ := hs (j + 1); rw [hc.unique ht2]; exact tb
      have hvt : (w.map Row.vol).take j = pre.map Row.vol := by rw [ew, List.map_append, ← hpl]; simp
      have hvt' : (w.map Row.vol).take (j + 1) = pre.map Row.vol ++ [r.vol] := by
        rw [List.take_add_one, hvt, List.getElem?_map, hr]; rfl
      have hpp : ∀ u ∈ pre.map Row.vol, Pos u := by
        intro u hu
        obtain ⟨q, hq, rfl⟩ := List.mem_map.1 hu
        obtain ⟨i, hi⟩ := List.mem_iff_getElem?.1 hq
        have hil : i < pre.length := (List.getElem?_eq_some_iff.1 hi).1
        refine h.formed.pos q (mem_take_of (i := i) ?_ (by omega))
        rw [ew, List.getElem?_append_left hil]
        exact hi
      have hrp : Pos r.vol := h.formed.pos r (mem_take_of hr hjm)
      rw [hvt] at ht hte
      rw [hvt'] at hc
      obtain ⟨u1, u2, u3, n, u, q, hvn, hvu, hvq, hnt, hnq, hue⟩ := split_values hpp hrp ht hc tb cb hx x0 htx (lt_of_le_of_ne hxc hne)
      have q0 : 0 ≤ q := by
        obtain ⟨q', hq', q0⟩ := h.vols r (List.mem_iff_getElem?.2 ⟨j, hr⟩)
        rw [hvq.unique hq']; exact q0
      have evols : w.map Row.vol = pre.map Row.vol ++ r.vol :: rest.map Row.vol := by rw [ew]; simp
      have hq2 : q ≤ 2 := by
        have h2 := hS.2
        rw [evols] at hnn h2
        have h3 := vsum_sublist (l' := [r.vol]) (by simp) hnn
        rw [vsum_cons, vsum_nil, hvq.val] at h3
        linarith
      have hpn : ∀ v ∈ pre.map Row.vol, ∃ q, Val v q ∧ 0 ≤ q := fun v hv => hnn v (by rw [evols]; exact List.mem_append_left _ hv)
      have t0 : 0 ≤ t := by
        have h1 := totals_mono h (Nat.zero_le j) (c := 0) (c' := t) (by simp [total]; exact val_zero) (by rw [hvt]; exact ht)
        exact h1
      -- values
      have hadd : total D (pre.map Row.vol ++ [r.vol]) = B64.add (total D (pre.map Row.vol)) r.vol := by
        unfold total; rw [List.foldl_append]; rfl
      have hcv : c = B64.round (t + q) := by
        rw [hadd] at hc
        exact val_add_inv ht hvq hc
      have t1 : t ≤ 1 := by linarith
      have b1 := (round_err16 (q := t + q) (by rw [abs_le]; constructor <;> linarith)).1
      rw [← hcv, abs_le] at b1
      obtain ⟨b2, b2'⟩ := round_err16 (q := c - q) (by rw [abs_le]; constructor <;> linarith)
      rw [abs_le] at b2
      obtain ⟨b3, b3'⟩ := round_err16 (q := x - B64.round (c - q)) (by rw [abs_le]; constructor <;> linarith)
      have hn1 : n = B64.round (x - B64.round (c - q)) := hvn.unique (val_sub hx (val_sub hc hvq b2') b3')
      obtain ⟨z1, z2, z3⟩ := split_numbers t0 (by linarith) q0 hq2 x0.le x1 hcv hn1 hue rfl
      rw [abs_le] at z3
      set new := lowerPart D (pre.map Row.vol) r.vol (fill nFree) with hnew
      have posval : ∀ {y : B64} {q : ℚ}, Pos y → Val y q → 0 < q := by
        intro y q h1 h2
        have : B64.lt B64.zero y = true := h1
        rw [val_lt val_zero h2] at this
        simpa using this
      have hl : w.length = j + 1 + rest.length := by rw [ew]; simp; omega
      have hrestne : rest ≠ [] := by intro e; rw [e] at hl; simp at hl; omega
      have hupd := cyUpdateVolumes_list (A := B64.arith sum) pre rest r (fill nFree) hrestne
      rw [← ew, hpl] at hupd
      set w0 : WM B64 s := pre ++ ⟨new, r.fill⟩ :: ⟨D.sub r.vol new, r.fill⟩ :: rest.dropLast with hw0
      have hw0l : w0.length = w.length := by
        rw [hw0, List.length_append, List.length_cons, List.length_cons, List.length_dropLast, hpl, hl]
        have := List.length_pos_iff.2 hrestne
        omega
      have hw0d : w0.drop (j + 1) = ⟨D.sub r.vol new, r.fill⟩ :: rest.dropLast := by
        rw [hw0, ← List.drop_drop, ← hpl, List.drop_left]; rfl
      have hvs : (w0.map Row.vol).take (j + 1) = pre.map Row.vol ++ [new] := by
        rw [hw0, List.map_append, List.take_append, ← hpl]
        simp
      have hje : ((j + 1 : ℕ) : ℚ) * err ≤ m * err := mul_le_mul_of_nonneg_right (by exact_mod_cast hjm) hep.le
      have hje1 : ((j + 1 : ℕ) : ℚ) * err = j * err + err := by push_cast; ring
      have hpv : vsum (pre.map Row.vol) ≤ 2 := by
        have := vsum_sublist (l' := pre.map Row.vol) (by rw [evols]; exact List.sublist_append_left _ _) hnn
        linarith
      obtain ⟨X, Xq, hcol, hX, hXe⟩ := collapse_filled (sum := sum) (k := j + 1) (w := w0) (init := w0) (by omega) (by omega) (by
        rw [hw0d]
        intro r' hr' a
        rcases List.mem_cons.1 hr' with rfl | hr'
        · exact h.below hlt (show r ∈ w by rw [ew]; simp) a
        · exact h.below hlt (show r' ∈ w by rw [ew]; simp [List.mem_of_mem_dropLast hr']) a) (by
        rw [hvs]
        intro v' hv'
        rcases List.mem_append.1 hv' with hv' | hv'
        · exact (hpn v' hv').imp fun _ h => h.1
        · rw [List.mem_singleton.1 hv']
          exact ⟨_, hvn⟩) (by
        rw [hvs, asum_append, asum_of_nonneg hpn, asum_cons, asum_nil, hvn.val]
        have : |n| ≤ 5 := by rw [abs_le]; constructor <;> linarith
        linarith) (by linarith)
      rw [hvs, vsum_append, vsum_cons, vsum_nil, hvn.val, hje1, abs_le] at hXe
      rw [hw0d, show j + 1 - 1 = pre.length by omega] at hcol
      obtain ⟨b5, -⟩ := round_err16 (q := q - n) (by rw [abs_le]; constructor <;> linarith)
      rw [← hue, abs_le] at b5
      rw [abs_le] at hte
      have h1X : |Xq - x| ≤ 2 * (pre.length * err) + 4 * err := by
        rw [hpl, abs_le]
        constructor <;> linarith
      have hsh : Shaped m B x w ((⟨X, fun _ => B64.one⟩ : Row B64 s) ::
          (⟨D.sub r.vol new, r.fill⟩ :: rest.dropLast) ++ List.replicate pre.length (zeroRow D s)) := by
        rw [ew]
        exact shaped_split (by rw [← ew]; exact h) (by rw [← ew]; exact hlt) (by omega) (by rw [← ew]; exact hm)
          (by rw [← ew]; exact hB) hX (by rw [hpl, abs_le] at h1X; linarith) hvu (posval u1 hvu) hvq (by rw [hpl]; linarith) h1X
          (by rw [hpl, abs_le]; constructor <;> linarith)
      refine ⟨_, hsh, ?_⟩
      intro N c0 c1 hN1 hN2 h0 h1 hc1 hc0 hle hb
      have := finish_plain (p := p) hcol hsh.idx hN1 hN2 ha a0 h0 h1 hle hb
      unfold icCapture
      simp only
      rw [hmax, if_neg hfirst, watermarkIndexAboveCloud_sum, hi, if_pos (by omega)]
      unfold splitAtCloud
      rw [if_pos ⟨pos_of_val hx x0, by rw [cyValueInCumsum_sum]; exact hin⟩]
      unfold updateVolumes
      simp only [show ¬ ((j : ℤ) < 0) by omega, if_false, Int.toNat_natCast, hupd, bind, Except.bind]
      exact this

end Arctic.Fp
