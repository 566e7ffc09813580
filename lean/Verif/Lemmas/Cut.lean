import Verif.Lemmas.Watermarks
import Verif.Spec.Profile

/-!
# Cutting a watermark array at the height of the cloud

`cutAt c act` is the list of levels below and above depth `c`; both ways in which the code prepares a
level boundary at the cloud (splitting a level, or adding one on top) produce it.
-/

set_option linter.unusedSectionVars false
set_option linter.unusedVariables false

namespace Arctic

variable {K : Type} [Field K] [LinearOrder K] [IsStrictOrderedRing K] {s : ℕ}

/-- `z` unused rows. -/
def Z (z : ℕ) : WM K s := List.replicate z (zeroRow K s)

def vols (l : WM K s) : List K := l.map Row.vol

theorem volSum_nil : volSum ([] : WM K s) = 0 := by simp [volSum]
theorem volSum_cons (r : Row K s) (l : WM K s) : volSum (r :: l) = r.vol + volSum l := by
  simp [volSum]
theorem volSum_append (l l' : WM K s) : volSum (l ++ l') = volSum l + volSum l' := by
  simp [volSum]
theorem volSum_Z (z : ℕ) : volSum (Z z : WM K s) = 0 := by
  simp [volSum, Z, zeroRow]
theorem volSum_eq_of_vols {l l' : WM K s} (h : vols l = vols l') : volSum l = volSum l' := by
  unfold volSum; unfold vols at h; rw [h]

/-- All levels have positive volume. -/
def Pos (l : WM K s) : Prop := ∀ r ∈ l, 0 < r.vol

theorem Pos.sum_nonneg {l : WM K s} (h : Pos l) : 0 ≤ volSum l := by
  unfold volSum; apply List.sum_nonneg
  intro x hx; rw [List.mem_map] at hx; obtain ⟨r, hr, rfl⟩ := hx; exact (h r hr).le

theorem Pos.sum_pos {l : WM K s} (h : Pos l) (hne : l ≠ []) : 0 < volSum l := by
  cases l with
  | nil => exact absurd rfl hne
  | cons r l =>
    rw [volSum_cons]
    have h1 := h r (by simp)
    have h2 : 0 ≤ volSum l := Pos.sum_nonneg fun x hx => h x (by simp [hx])
    linarith

theorem Pos.append {l l' : WM K s} (h : Pos l) (h' : Pos l') : Pos (l ++ l') := by
  intro r hr; rw [List.mem_append] at hr; exact hr.elim (h r) (h' r)

theorem pos_of_vols {l l' : WM K s} (h : vols l = vols l') (hp : Pos l) : Pos l' := by
  intro r hr
  have : r.vol ∈ vols l' := List.mem_map_of_mem hr
  rw [← h] at this
  unfold vols at this
  rw [List.mem_map] at this
  obtain ⟨r', hr', e⟩ := this
  rw [← e]; exact hp r' hr'

theorem Pos.left {l l' : WM K s} (h : Pos (l ++ l')) : Pos l := fun r hr => h r (by simp [hr])
theorem Pos.right {l l' : WM K s} (h : Pos (l ++ l')) : Pos l' := fun r hr => h r (by simp [hr])

/-! ### the highest active level -/

theorem argmaxTrue_append (l l' : List Bool) (h : ∀ b ∈ l, b = false) (h' : l'.head? = some true) :
    argmaxTrue (l ++ l') = l.length := by
  unfold argmaxTrue
  have : (l ++ l').findIdx id = l.length := by
    rw [List.findIdx_append, if_neg]
    · cases l' with
      | nil => simp at h'
      | cons b l' => simp at h'; subst h'; simp [List.findIdx_cons]
    · rw [not_lt]
      rw [List.findIdx_eq_length.2]
      intro x hx; simpa using h x hx
  rw [this, if_pos]
  rw [List.length_append]
  cases l' with
  | nil => simp at h'
  | cons b l' => simp

theorem maxWatermarkIndex_eq (act : WM K s) (z : ℕ) (h : ∀ r ∈ act, r.vol ≠ 0) :
    maxWatermarkIndex (act ++ Z (z + 1)) = (act.length : ℤ) - 1 := by
  unfold maxWatermarkIndex
  rw [List.map_append, argmaxTrue_append]
  · rw [List.length_map]
  · intro b hb
    rw [List.mem_map] at hb
    obtain ⟨r, hr, rfl⟩ := hb
    simpa using h r hr
  · simp [Z, List.replicate_succ, zeroRow]

theorem argmax_zero_eq (act : WM K s) (z : ℕ) (h : ∀ r ∈ act, r.vol ≠ 0) :
    argmaxTrue ((act ++ Z (z + 1)).map fun r : Row K s => decide (r.vol = 0)) = act.length := by
  have := maxWatermarkIndex_eq act z h
  unfold maxWatermarkIndex at this
  omega

/-! ### the cut -/

/-- Levels below and above depth `c` (for `0 < c`), the level containing `c` being divided; above all
levels an empty one is added. -/
def cutAt (c : K) : WM K s → WM K s × WM K s
  | [] => ([⟨c, fun _ => 0⟩], [])
  | r :: rs =>
    if c < r.vol then ([⟨c, r.fill⟩], ⟨r.vol - c, r.fill⟩ :: rs)
    else if c = r.vol then ([r], rs)
    else (r :: (cutAt (c - r.vol) rs).1, (cutAt (c - r.vol) rs).2)

theorem cutAt_pos (c : K) (act : WM K s) (hc : 0 < c) (h : Pos act) :
    Pos ((cutAt c act).1 ++ (cutAt c act).2) := by
  induction act generalizing c with
  | nil => intro r hr; simp only [cutAt, List.append_nil, List.mem_singleton] at hr; subst hr; exact hc
  | cons r rs ih =>
    have hr := h r (by simp)
    have hrs : Pos rs := fun x hx => h x (by simp [hx])
    unfold cutAt
    split
    · intro x hx
      simp only [List.cons_append, List.nil_append, List.mem_cons] at hx
      rcases hx with rfl | rfl | hx
      · exact hc
      · simp only; linarith
      · exact hrs x hx
    · split
      · exact h
      · rename_i h1 h2
        intro x hx
        simp only [List.cons_append, List.mem_cons] at hx
        rcases hx with rfl | hx
        · exact hr
        · exact ih (c - r.vol) (by rcases lt_or_eq_of_le (not_lt.1 h1) with h | h
                                   · linarith
                                   · exact absurd h.symm h2) hrs x hx

theorem cutAt_vol (c : K) (act : WM K s) : volSum (cutAt c act).1 = c := by
  induction act generalizing c with
  | nil => simp [cutAt, volSum]
  | cons r rs ih =>
    unfold cutAt
    split
    · simp [volSum]
    · split
      · rename_i h1 h2; simp [volSum, h2]
      · simp only; rw [volSum_cons, ih]; ring

theorem cutAt_sub_pos {c : K} {r : Row K s} (h1 : ¬ c < r.vol) (h2 : ¬ c = r.vol) : 0 < c - r.vol := by
  rcases lt_or_eq_of_le (not_lt.1 h1) with h | h
  · linarith
  · exact absurd h.symm h2

theorem cutAt_hi_vol (c : K) (act : WM K s) (hc : 0 < c) (h : Pos act) :
    volSum (cutAt c act).2 = max 0 (volSum act - c) := by
  induction act generalizing c with
  | nil => simp only [cutAt, volSum_nil]; rw [max_eq_left]; linarith
  | cons r rs ih =>
    have hr := h r (by simp)
    have hrs : Pos rs := fun x hx => h x (by simp [hx])
    have hn := hrs.sum_nonneg
    unfold cutAt
    rw [volSum_cons]
    split
    · rename_i h1; simp only; rw [volSum_cons, max_eq_right]
      · simp only; ring
      · linarith
    · split
      · rename_i h1 h2; simp only; rw [h2, max_eq_right] <;> linarith
      · rename_i h1 h2
        simp only; rw [ih _ (cutAt_sub_pos h1 h2) hrs]; congr 1; ring

theorem cutAt_ne_nil (c : K) (act : WM K s) : (cutAt c act).1 ≠ [] := by
  cases act with
  | nil => simp [cutAt]
  | cons r rs => unfold cutAt; split
                 · simp
                 · split <;> simp

theorem cutAt_length (c : K) (act : WM K s) :
    act.length ≤ (cutAt c act).1.length + (cutAt c act).2.length ∧
    (cutAt c act).1.length + (cutAt c act).2.length ≤ act.length + 1 := by
  induction act generalizing c with
  | nil => simp [cutAt]
  | cons r rs ih =>
    unfold cutAt
    split
    · simp; omega
    · split
      · simp; omega
      · have := ih (c - r.vol)
        simp only [List.length_cons]; omega

theorem cutAt_fill (c : K) (act : WM K s) (P : (Fin s → K) → Prop) (h0 : P fun _ => 0)
    (h : ∀ r ∈ act, P r.fill) : ∀ r ∈ (cutAt c act).1 ++ (cutAt c act).2, P r.fill := by
  induction act generalizing c with
  | nil => intro r hr; simp only [cutAt, List.append_nil, List.mem_singleton] at hr; subst hr; exact h0
  | cons r rs ih =>
    have hr := h r (by simp)
    have hrs : ∀ x ∈ rs, P x.fill := fun x hx => h x (by simp [hx])
    unfold cutAt
    split
    · intro x hx
      simp only [List.cons_append, List.nil_append, List.mem_cons] at hx
      rcases hx with rfl | rfl | hx
      · exact hr
      · exact hr
      · exact hrs x hx
    · split
      · exact h
      · intro x hx
        simp only [List.cons_append, List.mem_cons] at hx
        rcases hx with rfl | hx
        · exact hr
        · exact ih _ hrs x hx

theorem cutAt_vols (c : K) (act act' : WM K s) (h : vols act = vols act') :
    vols (cutAt c act).1 = vols (cutAt c act').1 ∧ vols (cutAt c act).2 = vols (cutAt c act').2 := by
  induction act generalizing c act' with
  | nil =>
    have : act' = [] := by
      have := congrArg List.length h
      simp [vols] at this; exact List.length_eq_zero_iff.1 this.symm
    subst this; exact ⟨rfl, rfl⟩
  | cons r rs ih =>
    cases act' with
    | nil => simp [vols] at h
    | cons r' rs' =>
      simp only [vols, List.map_cons, List.cons.injEq] at h
      obtain ⟨e, hrs⟩ := h
      unfold cutAt
      rw [e]
      split
      · simp [vols, hrs]
      · split
        · simp [vols, hrs, e]
        · have := ih (c - r'.vol) rs' hrs
          simp only [vols, List.map_cons]
          refine ⟨?_, this.2⟩
          rw [e]; congr 1; exact this.1

/-- The cut inside the levels, in terms of a decomposition. -/
theorem cutAt_mid (c : K) (pre post : WM K s) (r : Row K s) (hp : Pos (pre ++ r :: post))
    (h1 : volSum pre < c) (h2 : c ≤ volSum pre + r.vol) :
    cutAt c (pre ++ r :: post) =
      (pre ++ [⟨c - volSum pre, r.fill⟩],
        if c = volSum pre + r.vol then post
        else ⟨r.vol - (c - volSum pre), r.fill⟩ :: post) := by
  induction pre generalizing c with
  | nil =>
    simp only [volSum_nil, zero_add, sub_zero, List.nil_append] at *
    unfold cutAt
    split
    · rename_i h; rw [if_neg h.ne]
    · rename_i h
      have e : c = r.vol := le_antisymm h2 (not_lt.1 h)
      rw [if_pos e, if_pos e, e]
  | cons p pre ih =>
    rw [volSum_cons] at h1 h2
    have hpre : Pos (pre ++ r :: post) := fun x hx => hp x (by simp only [List.cons_append, List.mem_cons]; exact Or.inr hx)
    have hn : 0 ≤ volSum pre := hpre.left.sum_nonneg
    rw [List.cons_append]
    unfold cutAt
    rw [if_neg (by linarith), if_neg (by intro e; linarith)]
    rw [ih (c - p.vol) hpre (by linarith) (by linarith)]
    have e1 : c - p.vol - volSum pre = c - volSum (p :: pre) := by rw [volSum_cons]; ring
    have e2 : (c - p.vol = volSum pre + r.vol) ↔ (c = volSum (p :: pre) + r.vol) := by
      rw [volSum_cons]; constructor <;> intro h <;> linarith
    simp only [e1, e2, List.cons_append]

/-- The cut above all levels. -/
theorem cutAt_above (c : K) (act : WM K s) (hp : Pos act) (h : volSum act < c) :
    cutAt c act = (act ++ [⟨c - volSum act, fun _ => 0⟩], []) := by
  induction act generalizing c with
  | nil => simp [cutAt, volSum_nil]
  | cons p act ih =>
    have hpa : Pos act := fun x hx => hp x (by simp [hx])
    have hn := hpa.sum_nonneg
    rw [volSum_cons] at h
    unfold cutAt
    rw [if_neg (by linarith), if_neg (by intro e; linarith), ih _ hpa (by linarith)]
    have e1 : c - p.vol - volSum act = c - volSum (p :: act) := by rw [volSum_cons]; ring
    simp only [e1, List.cons_append]

/-- A positive cloud volume not above all levels lies in one of them. -/
theorem exists_mid (c : K) (act : WM K s) (hp : Pos act) (hc : 0 < c) (h : c ≤ volSum act) :
    ∃ pre r post, act = pre ++ r :: post ∧ volSum pre < c ∧ c ≤ volSum pre + r.vol := by
  induction act generalizing c with
  | nil => rw [volSum_nil] at h; linarith
  | cons r rs ih =>
    by_cases hle : c ≤ r.vol
    · exact ⟨[], r, rs, rfl, by rw [volSum_nil]; exact hc, by rw [volSum_nil, zero_add]; exact hle⟩
    · rw [volSum_cons] at h
      obtain ⟨pre, r', post, e, h1, h2⟩ := ih (c - r.vol) (fun x hx => hp x (by simp [hx]))
        (by linarith [not_le.1 hle]) (by linarith)
      refine ⟨r :: pre, r', post, by rw [e]; rfl, ?_, ?_⟩ <;> rw [volSum_cons] <;> linarith

/-! ### what the code's index search and split do -/

theorem sum_take_le (l : WM K s) (hp : Pos l) (k : ℕ) : ((vols l).take k).sum ≤ volSum l := by
  have : volSum l = ((vols l).take k).sum + ((vols l).drop k).sum := by
    rw [← List.sum_append, List.take_append_drop]; rfl
  rw [this, le_add_iff_nonneg_right]
  apply List.sum_nonneg
  intro x hx
  have := List.mem_of_mem_drop hx
  unfold vols at this
  rw [List.mem_map] at this
  obtain ⟨r, hr, rfl⟩ := this; exact (hp r hr).le

theorem vols_Z (z : ℕ) : vols (Z z : WM K s) = List.replicate z 0 := by simp [vols, Z, zeroRow]

theorem take_sum_Z (z k : ℕ) : ((vols (Z z : WM K s)).take k).sum = 0 := by
  rw [vols_Z, List.take_replicate]; simp

theorem vols_append (l l' : WM K s) : vols (l ++ l') = vols l ++ vols l' := List.map_append

theorem index_mid (c : K) (pre post : WM K s) (r : Row K s) (z : ℕ) (mx : ℤ)
    (hp : Pos (pre ++ r :: post)) (hc : 0 < c) (h1 : volSum pre < c) (h2 : c ≤ volSum pre + r.vol) :
    watermarkIndexAboveCloud c (pre ++ r :: post ++ Z z) mx = pre.length := by
  unfold watermarkIndexAboveCloud
  rw [if_neg hc.ne']
  have hpost : Pos post := fun x hx => hp x (by simp [hx])
  apply cyIndexAbove_first
  · simp
  · change c ≤ volSum _
    rw [volSum_append, volSum_append, volSum_cons, volSum_Z]
    have := hpost.sum_nonneg
    linarith
  · change c ≤ ((vols (pre ++ r :: post ++ Z z)).take _).sum
    rw [List.append_assoc, vols_append, List.take_append]
    have : ((vols pre).take (pre.length + 1)).sum = volSum pre := by
      rw [List.take_of_length_le (by simp [vols])]; rfl
    rw [List.sum_append, this]
    have e : pre.length + 1 - (vols pre).length = 1 := by simp [vols]
    rw [e]
    simp only [vols, List.cons_append, List.map_cons, List.take_succ_cons, List.take_zero,
      List.sum_cons, List.sum_nil, add_zero]
    exact h2
  · intro j hj
    change ((vols (pre ++ r :: post ++ Z z)).take _).sum < c
    rw [List.append_assoc, vols_append, List.take_append_of_le_length (by simp [vols]; omega)]
    exact lt_of_le_of_lt (sum_take_le pre hp.left _) h1

theorem index_above (c : K) (act : WM K s) (z : ℕ) (mx : ℤ) (hc : 0 < c) (h : volSum act < c) :
    watermarkIndexAboveCloud c (act ++ Z z) mx = mx + 1 := by
  unfold watermarkIndexAboveCloud
  rw [if_neg hc.ne']
  apply cyIndexAbove_total
  change volSum _ < c
  rw [volSum_append, volSum_Z, add_zero]; exact h

theorem inCumsum_mid (c : K) (pre post : WM K s) (r : Row K s) (z : ℕ)
    (hp : Pos (pre ++ r :: post)) (hc : 0 < c) (h1 : volSum pre < c) (h2 : c ≤ volSum pre + r.vol) :
    cyValueInCumsum c ((pre ++ r :: post ++ Z z).map Row.vol) = true ↔ c = volSum pre + r.vol := by
  have hpost : Pos post := fun x hx => hp x (by simp [hx])
  rw [cyValueInCumsum_iff]
  have hsplit : ∀ q, (((pre ++ r :: post ++ Z z).map Row.vol).take (pre.length + 1 + q)).sum =
      volSum pre + r.vol + ((vols (post ++ Z z)).take q).sum := by
    intro q
    change ((vols (pre ++ r :: post ++ Z z)).take _).sum = _
    rw [List.append_assoc, vols_append, List.take_append, List.sum_append]
    rw [List.take_of_length_le (by simp [vols]; omega)]
    have e : pre.length + 1 + q - (vols pre).length = q + 1 := by simp [vols]; omega
    rw [e]
    simp only [vols, List.cons_append, List.map_cons, List.take_succ_cons, List.sum_cons]
    unfold volSum; ring
  constructor
  · rintro ⟨i, hi, e⟩
    rcases lt_or_ge i pre.length with h | h
    · exfalso
      have : (((pre ++ r :: post ++ Z z).map Row.vol).take (i + 1)).sum ≤ volSum pre := by
        change ((vols (pre ++ r :: post ++ Z z)).take _).sum ≤ _
        rw [List.append_assoc, vols_append, List.take_append_of_le_length (by simp [vols]; omega)]
        exact sum_take_le pre hp.left _
      linarith
    · obtain ⟨q, rfl⟩ : ∃ q, i = pre.length + q := ⟨i - pre.length, by omega⟩
      rw [show pre.length + q + 1 = pre.length + 1 + q by omega, hsplit] at e
      have hnn : 0 ≤ ((vols (post ++ Z z)).take q).sum := by
        apply List.sum_nonneg
        intro x hx
        have := List.mem_of_mem_take hx
        unfold vols at this
        rw [List.mem_map] at this
        obtain ⟨r', hr', rfl⟩ := this
        rw [List.mem_append] at hr'
        rcases hr' with hr' | hr'
        · exact (hpost r' hr').le
        · unfold Z at hr'
          rw [List.mem_replicate] at hr'; rw [hr'.2]; exact le_rfl
      linarith
  · intro e
    refine ⟨pre.length, by simp, ?_⟩
    have := hsplit 0
    rw [add_zero] at this
    rw [this]; simpa using e

theorem dropLast_Z (l : WM K s) (z : ℕ) : (l ++ Z (z + 1)).dropLast = l ++ Z z := by
  unfold Z
  rw [List.replicate_succ', ← List.append_assoc, List.dropLast_concat]

/-- Decompose a second array with the same volumes in the same way. -/
theorem vols_decomp {pre post : WM K s} {r : Row K s} {act' : WM K s}
    (h : vols (pre ++ r :: post) = vols act') :
    ∃ pre' r' post', act' = pre' ++ r' :: post' ∧ vols pre = vols pre' ∧ r.vol = r'.vol ∧
      vols post = vols post' := by
  induction pre generalizing act' with
  | nil =>
    cases act' with
    | nil => simp [vols] at h
    | cons r' post' =>
      simp only [List.nil_append, vols, List.map_cons, List.cons.injEq] at h
      exact ⟨[], r', post', rfl, rfl, h.1, h.2⟩
  | cons p pre ih =>
    cases act' with
    | nil => simp [vols] at h
    | cons p' act' =>
      simp only [List.cons_append, vols, List.map_cons, List.cons.injEq] at h
      obtain ⟨pre', r', post', e, h1, h2, h3⟩ := ih h.2
      refine ⟨p' :: pre', r', post', by rw [e]; rfl, ?_, h2, h3⟩
      simp only [vols, List.map_cons, h.1]
      congr 1

/-- **Splitting at the cloud is the cut**: for a cloud at or below the top level, the index search and
`splitAtCloud` of two arrays with equal volumes. -/
theorem splitAtCloud_cut (c : K) (act act' : WM K s) (z : ℕ) (hp : Pos act)
    (hv : vols act = vols act') (hc : 0 < c) (h : c ≤ volSum act) :
    ∃ z', (cutAt c act).1.length + (cutAt c act).2.length + z' = act.length + z + 1 ∧
      watermarkIndexAboveCloud c (act ++ Z (z + 1)) (act.length - 1) =
        ((cutAt c act).1.length : ℤ) - 1 ∧
      (cutAt c act).1.length ≤ act.length ∧
      splitAtCloud c (((cutAt c act).1.length : ℤ) - 1) (act.length - 1) (act ++ Z (z + 1))
          (act' ++ Z (z + 1)) =
        .ok ((cutAt c act).1 ++ (cutAt c act).2 ++ Z z',
          (cutAt c act').1 ++ (cutAt c act').2 ++ Z z',
          ((cutAt c act).1.length + (cutAt c act).2.length : ℤ) - 1) := by
  obtain ⟨pre, r, post, rfl, h1, h2⟩ := exists_mid c act hp hc h
  obtain ⟨pre', r', post', rfl, v1, v2, v3⟩ := vols_decomp hv
  have hp' : Pos (pre' ++ r' :: post') := pos_of_vols hv hp
  have hsum : volSum pre' = volSum pre := (volSum_eq_of_vols v1).symm
  have hlen : pre'.length = pre.length := by
    have := congrArg List.length v1; simpa [vols] using this.symm
  have hidx := index_mid c pre post r (z + 1) ((pre ++ r :: post).length - 1) hp hc h1 h2
  have hcum := inCumsum_mid c pre post r (z + 1) hp hc h1 h2
  rw [cutAt_mid c pre post r hp h1 h2,
    cutAt_mid c pre' post' r' hp' (by rw [hsum]; exact h1) (by rw [hsum, ← v2]; exact h2)]
  simp only [hsum, ← v2]
  by_cases e : c = volSum pre + r.vol
  · -- the boundary exists already
    refine ⟨z + 1, ?_, ?_, ?_, ?_⟩
    · simp [if_pos e]; omega
    · rw [hidx]; simp
    · simp
    · unfold splitAtCloud
      rw [if_neg (by rw [not_and, not_not]; exact fun _ => hcum.2 e)]
      have e1 : c - volSum pre = r.vol := by linarith
      have e2 : (⟨r.vol, r'.fill⟩ : Row K s) = r' := by rw [v2]
      simp only [if_pos e, e1, e2, List.append_assoc, List.cons_append, List.nil_append,
        List.length_append, List.length_cons, List.length_nil]
      congr 3
      push_cast; ring
  · refine ⟨z, ?_, ?_, ?_, ?_⟩
    · simp [if_neg e]; omega
    · rw [hidx]; simp
    · simp
    · unfold splitAtCloud
      rw [if_pos ⟨hc, fun hh => e (hcum.1 hh)⟩]
      simp only [if_neg e, List.length_append, List.length_cons, List.length_nil]
      have i1 : ((pre.length + (0 + 1) : ℕ) : ℤ) - 1 = (pre.length : ℤ) := by push_cast; ring
      rw [i1]
      have hneg : ¬ (pre.length : ℤ) < 0 := by omega
      unfold updateVolumes
      simp only [if_neg hneg]
      have t : (pre.length : ℤ).toNat = pre.length := rfl
      have a1 : pre ++ r :: post ++ Z (z + 1) = pre ++ r :: (post ++ Z (z + 1)) := by simp
      have a2 : pre' ++ r' :: post' ++ Z (z + 1) = pre' ++ r' :: (post' ++ Z (z + 1)) := by simp
      have hne : ∀ l : WM K s, l ++ Z (z + 1) ≠ [] := by intro l; simp [Z, List.replicate_succ]
      rw [t, a1, a2, cyUpdateVolumes_eq _ _ _ _ (hne _)]
      have a3 := cyUpdateVolumes_eq pre' (post' ++ Z (z + 1)) r' c (hne _)
      rw [hlen] at a3
      rw [a3]
      simp only [bind, Except.bind, dropLast_Z]
      have s1 : (pre.map Row.vol).sum = volSum pre := rfl
      have s2 : (pre'.map Row.vol).sum = volSum pre := hsum
      simp only [s1, s2, v2, List.append_assoc, List.cons_append, List.nil_append]
      congr 3
      push_cast; ring

/-- **Adding a level on top is the cut**, for a cloud above all levels. -/
theorem newTop_cut (c : K) (act act' : WM K s) (z : ℕ) (hp : Pos act)
    (hv : vols act = vols act') (hc : 0 < c) (h : volSum act < c) :
    watermarkIndexAboveCloud c (act ++ Z (z + 1)) (act.length - 1) =
        ((cutAt c act).1.length : ℤ) - 1 ∧
      (cutAt c act).1.length = act.length + 1 ∧ (cutAt c act).2 = [] ∧ (cutAt c act').2 = [] ∧
      newTopWatermark c (((cutAt c act).1.length : ℤ) - 1) (act ++ Z (z + 1)) (act' ++ Z (z + 1)) =
        .ok ((cutAt c act).1 ++ Z z, (cutAt c act').1 ++ Z z) := by
  have hp' : Pos act' := pos_of_vols hv hp
  have hsum : volSum act' = volSum act := (volSum_eq_of_vols hv).symm
  have hlen : act'.length = act.length := by
    have := congrArg List.length hv; simpa [vols] using this.symm
  have hidx := index_above c act (z + 1) (act.length - 1) hc h
  rw [cutAt_above c act hp h, cutAt_above c act' hp' (by rw [hsum]; exact h), hidx]
  simp only [List.length_append, List.length_cons, List.length_nil]
  refine ⟨by push_cast; ring, trivial, trivial, trivial, ?_⟩
  unfold newTopWatermark
  rw [if_pos]
  · have t : (((act.length + (0 + 1) : ℕ) : ℤ) - 1).toNat = act.length + 0 := by omega
    have hz : (Z (z + 1) : WM K s) = zeroRow K s :: Z z := by simp [Z, List.replicate_succ]
    have m1 : ∀ (l : WM K s) (v : K), l.length = act.length →
        setVol (l ++ Z (z + 1)) (act.length + 0) v = l ++ ⟨v, fun _ => 0⟩ :: Z z := by
      intro l v hl
      unfold setVol
      rw [← hl, modify_append, hz]; rfl
    have hs : ((act ++ Z (z + 1)).map Row.vol).sum = volSum act := by
      change volSum (act ++ Z (z + 1)) = _
      rw [volSum_append, volSum_Z, add_zero]
    simp only [t, hs]
    rw [m1 act _ rfl, m1 act' _ hlen]
    simp [hsum]
  · simp [Z]

end Arctic
