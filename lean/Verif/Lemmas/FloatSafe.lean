import Verif.Model.Float
import Verif.Lemmas.Watermarks
import Verif.Lemmas.Fold
import Verif.Lemmas.StepShape

/-!
# The watermark array never overflows, whatever the rounding
-/

set_option linter.unusedSectionVars false
set_option linter.unusedVariables false

namespace Arctic

/-- What is asked of the arithmetic. All of it holds for IEEE double precision, with infinities and NaN. -/
structure Arith.Lawful {F : Type} (A : Arith F) : Prop where
  /-- `0.0 == 0.0` -/
  zero_eq : A.eq A.zero A.zero = true
  /-- a positive number is not `== 0.0` -/
  pos_ne : ∀ c, A.lt A.zero c = true → A.eq c A.zero = false
  /-- adding `0.0` does not change comparisons -/
  add_zero_le : ∀ c t, A.le c (A.add t A.zero) = A.le c t
  /-- a difference is `0.0` only if the numbers are `==` (gradual underflow) -/
  sub_zero : ∀ a b, A.eq (A.sub a b) A.zero = true → A.eq a b = true

/-- All numbers can be compared: there is no NaN. -/
def Arith.NoNaN {F : Type} (A : Arith F) : Prop := ∀ t c, A.lt t c = false → A.le c t = true

theorem Arith.exact_lawful (K : Type) [Field K] [LinearOrder K] : (Arith.exact K).Lawful where
  zero_eq := by simp [Arith.exact]
  pos_ne c h := by
    simp only [Arith.exact, decide_eq_true_eq, decide_eq_false_iff_not] at h ⊢
    exact h.ne'
  add_zero_le c t := by simp [Arith.exact]
  sub_zero a b h := by
    simp only [Arith.exact, decide_eq_true_eq] at h ⊢
    exact sub_eq_zero.1 h

theorem Arith.exact_noNaN (K : Type) [Field K] [LinearOrder K] : (Arith.exact K).NoNaN := by
  intro t c h
  simp only [Arith.exact, decide_eq_false_iff_not, not_lt, decide_eq_true_eq] at h ⊢
  exact h

namespace Fp

variable {F : Type} {A : Arith F} {s : ℕ}

/-- From row `k` on, the volumes are the number zero. -/
def Used (A : Arith F) (k : ℕ) (wm : WM F s) : Prop := ∀ i r, k ≤ i → wm[i]? = some r → r.vol = A.zero

theorem Used.mono {k k' : ℕ} {wm : WM F s} (h : Used A k wm) (hk : k ≤ k') : Used A k' wm :=
  fun i r hi hr => h i r (hk.trans hi) hr

theorem used_congr {k : ℕ} {wm wm' : WM F s} (h : wm'.map Row.vol = wm.map Row.vol) (hu : Used A k wm) :
    Used A k wm' := by
  intro i r hi hr
  have h1 : (wm'.map Row.vol)[i]? = some r.vol := by rw [List.getElem?_map, hr]; rfl
  rw [h, List.getElem?_map] at h1
  cases hw : wm[i]? with
  | none => rw [hw] at h1; cases h1
  | some q =>
    rw [hw] at h1
    injection h1 with h1
    rw [← h1]; exact hu i q hi hw

theorem mapFills_vols (lo hi : ℕ) (g : Fin s → F → F) (wm : WM F s) : (mapFills lo hi g wm).map Row.vol = wm.map Row.vol := by
  apply List.ext_getElem?
  intro i
  unfold mapFills
  rw [List.getElem?_map, List.getElem?_map, List.getElem?_mapIdx]
  cases wm[i]? with
  | none => rfl
  | some r =>
    simp only [Option.map_some]
    split <;> rfl

theorem mapFills_length (lo hi : ℕ) (g : Fin s → F → F) (wm : WM F s) : (mapFills lo hi g wm).length = wm.length := by
  simp [mapFills]

theorem notEnough_vols (wm init : WM F s) (e : F) (hl : init.length = wm.length) :
    (notEnough A wm init e).map Row.vol = wm.map Row.vol := by
  unfold notEnough
  induction wm generalizing init with
  | nil => rfl
  | cons r wm ih =>
    cases init with
    | nil => simp at hl
    | cons r0 init => simp only [List.zipWith_cons_cons, List.map_cons]; rw [ih init (by simpa using hl)]

theorem setVol_used {k i : ℕ} {wm : WM F s} {v : F} (h : Used A k wm) (hi : i < k) : Used A k (setVol wm i v) := by
  intro j r hj hr
  unfold setVol at hr
  rw [List.getElem?_modify] at hr
  simp only [show ¬ i = j by omega, if_false, id_map'] at hr
  exact h j r hj hr

theorem setVol_length (wm : WM F s) (i : ℕ) (v : F) : (setVol wm i v).length = wm.length := by simp [setVol]

/-! ### indices -/

theorem argmaxTrue_le {l : List Bool} {k : ℕ} (h : l[k]? = some true) : argmaxTrue l ≤ k := by
  unfold argmaxTrue
  split
  · by_contra hc
    obtain ⟨h1, h2⟩ := List.getElem?_eq_some_iff.1 h
    have := List.not_of_lt_findIdx (p := id) (xs := l) (i := k) (by omega)
    simp [h2] at this
  · omega

theorem maxWatermarkIndex_le (hA : A.Lawful) {k : ℕ} {wm : WM F s} (hu : Used A k wm) (hk : k < wm.length) :
    maxWatermarkIndex A wm + 1 ≤ k := by
  unfold maxWatermarkIndex
  have h : (wm.map fun r => A.eq r.vol A.zero)[k]? = some true := by
    rw [List.getElem?_map, List.getElem?_eq_getElem hk, Option.map_some,
      hu k _ le_rfl (List.getElem?_eq_getElem hk), hA.zero_eq]
  have := argmaxTrue_le h
  omega

theorem maxWatermarkIndex_ge (wm : WM F s) : -1 ≤ maxWatermarkIndex A wm := by
  unfold maxWatermarkIndex; omega

theorem indexAboveLoop_tail (hA : A.Lawful) (c : F) (vs : List F) (hz : ∀ v ∈ vs, v = A.zero) :
    ∀ t i n, ((indexAboveLoop A c vs t i n).2 = n ∨ (indexAboveLoop A c vs t i n).2 = i) ∧
      (A.le c t = false → (indexAboveLoop A c vs t i n).2 = n) ∧
      (n ≤ i → (indexAboveLoop A c vs t i n).2 = n) ∧
      A.le c (indexAboveLoop A c vs t i n).1 = A.le c t := by
  induction vs with
  | nil => intro t i n; exact ⟨Or.inl rfl, fun _ => rfl, fun _ => rfl, rfl⟩
  | cons v vs ih =>
    intro t i n
    have hv := hz v List.mem_cons_self
    subst hv
    have ih := ih (fun v hv => hz v (List.mem_cons_of_mem _ hv))
    unfold indexAboveLoop
    simp only [hA.add_zero_le]
    obtain ⟨h1, h2, h3, h4⟩ := ih (A.add t A.zero) (i + 1) (if A.le c t then min n i else n)
    rw [hA.add_zero_le] at h2 h4
    cases hb : A.le c t with
    | false =>
      rw [hb] at h1 h2 h3 h4
      simp only [Bool.false_eq_true, if_false] at h1 h2 h3 h4 ⊢
      exact ⟨Or.inl (h2 trivial), fun _ => h2 trivial, fun _ => h2 trivial, h4⟩
    | true =>
      rw [hb] at h1 h2 h3 h4
      simp only [if_true] at h1 h2 h3 h4 ⊢
      have h5 := h3 (by omega)
      refine ⟨by omega, ?_, fun h => by omega, h4⟩
      intro h; cases h

theorem indexAboveLoop_lt (hA : A.Lawful) (c : F) (k : ℕ) (vs : List F) :
    ∀ t i n, i < k → (∀ j v, k ≤ i + j → vs[j]? = some v → v = A.zero) →
      (indexAboveLoop A c vs t i n).2 = n ∨ (indexAboveLoop A c vs t i n).2 < k := by
  induction vs with
  | nil => intro t i n _ _; exact Or.inl rfl
  | cons v vs ih =>
    intro t i n hi hz
    unfold indexAboveLoop
    simp only
    by_cases hk : i + 1 < k
    · rcases ih (A.add t v) (i + 1) (if A.le c (A.add t v) then min n i else n) hk
        (fun j u hj hu => hz (j + 1) u (by omega) (by simpa using hu)) with h | h
      · rw [h]; split <;> omega
      · exact Or.inr h
    · have hz' : ∀ u ∈ vs, u = A.zero := by
        intro u hu
        obtain ⟨j, hj⟩ := List.mem_iff_getElem?.1 hu
        exact hz (j + 1) u (by omega) (by simpa using hj)
      obtain ⟨-, h2, h3, -⟩ := indexAboveLoop_tail hA c vs hz' (A.add t v) (i + 1)
        (if A.le c (A.add t v) then min n i else n)
      cases hb : A.le c (A.add t v) with
      | false =>
        rw [hb] at h2
        simp only [Bool.false_eq_true, if_false] at h2 ⊢
        exact Or.inl (h2 trivial)
      | true =>
        rw [hb] at h3
        simp only [if_true] at h3 ⊢
        rw [h3 (by omega)]
        omega

/-- The running index is the array's length only if the final total is not above the cloud. -/
theorem indexAboveLoop_found (c : F) (vs : List F) :
    ∀ t i n, i + vs.length ≤ n → (A.le c (indexAboveLoop A c vs t i n).1 = true) → vs ≠ [] →
      (indexAboveLoop A c vs t i n).2 < n := by
  have hmono : ∀ (vs : List F) t i n m, m ≤ n → (indexAboveLoop A c vs t i m).2 ≤ n := by
    intro vs
    induction vs with
    | nil => intro t i n m h; exact h
    | cons v vs ih => intro t i n m h; unfold indexAboveLoop; exact ih _ _ _ _ (by split <;> omega)
  induction vs with
  | nil => intro t i n _ _ h; exact absurd rfl h
  | cons v vs ih =>
    intro t i n hn hle _
    unfold indexAboveLoop at hle ⊢
    simp only at hle ⊢
    rw [List.length_cons] at hn
    cases vs with
    | nil =>
      unfold indexAboveLoop at hle ⊢
      simp only at hle ⊢
      rw [if_pos hle]; omega
    | cons w vs =>
      cases hb : A.le c (A.add t v) with
      | false =>
        rw [hb] at hle
        simp only [Bool.false_eq_true, if_false] at hle ⊢
        exact ih _ _ _ (by omega) hle (by simp)
      | true =>
        rw [hb] at hle
        simp only [if_true] at hle ⊢
        have := hmono (w :: vs) (A.add t v) (i + 1) (min n i) (min n i) le_rfl
        rw [List.length_cons] at hn
        omega

/-- The index above the cloud: `-1` for no cloud, the row after the highest, a row in use, or the array's length, the
last only for a cloud that cannot be compared. -/
theorem index_cases (hA : A.Lawful) {k : ℕ} {wm : WM F s} (hu : Used A k wm) (hk : k < wm.length) (c : F) (m : ℤ) :
    (A.eq c A.zero = true ∧ watermarkIndexAboveCloud A c wm m = -1) ∨
      (A.eq c A.zero = false ∧ (watermarkIndexAboveCloud A c wm m = m + 1 ∨
        (0 ≤ watermarkIndexAboveCloud A c wm m ∧ watermarkIndexAboveCloud A c wm m < max k 1) ∨
        (watermarkIndexAboveCloud A c wm m = wm.length ∧ ¬ A.NoNaN))) := by
  unfold watermarkIndexAboveCloud
  cases h0 : A.eq c A.zero with
  | true => left; simp
  | false =>
    right
    refine ⟨rfl, ?_⟩
    simp only [Bool.false_eq_true, if_false]
    unfold cyIndexAbove
    generalize hx : indexAboveLoop A c (wm.map Row.vol) A.zero 0 wm.length = x
    obtain ⟨tot, idx⟩ := x
    simp only
    split
    · exact Or.inl rfl
    · rename_i hlt
      right
      have hz : ∀ j v, k ≤ 0 + j → (wm.map Row.vol)[j]? = some v → v = A.zero := by
        intro j v hj hv
        rw [List.getElem?_map] at hv
        cases hw : wm[j]? with
        | none => rw [hw] at hv; cases hv
        | some r => rw [hw] at hv; injection hv with hv; rw [← hv]; exact hu j r (by omega) hw
      have key : idx = wm.length ∨ idx < max k 1 := by
        rcases Nat.eq_zero_or_pos k with rfl | hpos
        · have := (indexAboveLoop_tail hA c (wm.map Row.vol) (fun v hv => by
            obtain ⟨j, hj⟩ := List.mem_iff_getElem?.1 hv
            exact hz j v (by omega) hj) A.zero 0 wm.length).1
          rw [hx] at this
          simp only at this
          omega
        · have := indexAboveLoop_lt hA c k (wm.map Row.vol) A.zero 0 wm.length hpos hz
          rw [hx] at this
          simp only at this
          omega
      rcases key with h | h
      · refine Or.inr ⟨by rw [h], fun hN => ?_⟩
        have hle := hN tot c (by simpa using hlt)
        have := indexAboveLoop_found (A := A) c (wm.map Row.vol) A.zero 0 wm.length (by simp)
          (by rw [hx]; exact hle) (by intro he; simp at he; subst he; simp at hk)
        rw [hx] at this
        simp only at this
        omega
      · exact Or.inl ⟨by omega, by omega⟩

/-! ### changes of the array -/

theorem shiftLoop_get {α : Type} (d : α) (n : ℕ) (w : List α) (i : ℕ) (hi : n ≤ i) :
    ((List.range n).foldl (fun w i => w.set i (w[i + 1]?.getD d)) w)[i]? = w[i]? := by
  induction n with
  | zero => rfl
  | succ n ih =>
    rw [List.range_succ, List.foldl_append, List.foldl_cons, List.foldl_nil, List.getElem?_set_ne (by omega), ih (by omega)]

theorem cyUpdateVolumes_used {k idx : ℕ} {wm : WM F s} {c : F} (hu : Used A k wm) (hk : k < wm.length) (hi : idx < k) :
    ∃ w, cyUpdateVolumes A wm c idx = .ok w ∧ w.length = wm.length ∧ Used A (k + 1) w := by
  unfold cyUpdateVolumes
  rw [if_neg (by omega)]
  refine ⟨_, rfl, ?_, ?_⟩
  · rw [setVol_length, setVol_length]
    split
    · rw [List.length_set, roll_length]
    · rw [foldl_set_length (fun _ i => i), roll_length]
  · refine setVol_used (setVol_used ?_ (by omega)) (by omega)
    have hne : wm ≠ [] := by intro h; rw [h] at hk; simp at hk
    intro i r hi' hr
    have hroll : (roll2dVertical1 wm)[i]? = some r := by
      split at hr
      · rw [List.getElem?_set_ne (by omega)] at hr; exact hr
      · rw [shiftLoop_get _ _ _ _ (by omega)] at hr; exact hr
    rw [roll_eq _ hne] at hroll
    obtain ⟨j, rfl⟩ : ∃ j, i = j + 1 := ⟨i - 1, by omega⟩
    rw [List.getElem?_cons_succ, List.getElem?_dropLast] at hroll
    split at hroll
    · exact hu j r (by omega) hroll
    · cases hroll

theorem collapseRows_length {k : ℕ} {wm : WM F s} {r : Row F s} (hk : k ≤ wm.length) :
    (collapseRows A k wm r).length = wm.length := by
  unfold collapseRows
  rw [List.length_set, List.length_rotate, List.length_append, List.length_replicate, List.length_drop]
  omega

theorem collapseRows_used {k n : ℕ} {wm : WM F s} {r : Row F s} (hk : k ≤ wm.length) (h2 : 2 ≤ k) (hu : Used A n wm)
    (hn : 1 ≤ n) : Used A n (collapseRows A k wm r) := by
  intro i q hi hq
  unfold collapseRows at hq
  rw [List.getElem?_set_ne (by omega)] at hq
  have hlen : (List.replicate k (zeroRow A s) ++ wm.drop k).length = wm.length := by simp; omega
  have hil : i < wm.length := by
    have := (List.getElem?_eq_some_iff.1 hq).1
    rw [List.length_rotate, hlen] at this
    exact this
  rw [List.getElem?_rotate (by rw [hlen]; exact hil), hlen] at hq
  by_cases hc : i + (k - 1) < wm.length
  · rw [Nat.mod_eq_of_lt hc, List.getElem?_append_right (by simp; omega), List.getElem?_drop] at hq
    simp only [List.length_replicate] at hq
    exact hu _ q (by omega) hq
  · have hm : (i + (k - 1)) % wm.length = i + (k - 1) - wm.length := by
      rw [Nat.mod_eq_sub_mod (by omega), Nat.mod_eq_of_lt (by omega)]
    rw [hm, List.getElem?_append_left (by simp; omega), List.getElem?_replicate, if_pos (by omega)] at hq
    injection hq with hq
    rw [← hq]; rfl

theorem argmaxTrue_le_length (l : List Bool) : argmaxTrue l ≤ l.length := by
  unfold argmaxTrue
  split <;> omega

theorem indexNotFilled_le (f : F) (wm : WM F s) : indexNotFilled A f wm ≤ wm.length := by
  unfold indexNotFilled
  cases h : ((List.finRange s).map fun i => argmaxTrue (wm.map fun r => !A.eq (r.fill i) f)).min? with
  | none => simp
  | some m =>
    have := List.min?_mem h
    obtain ⟨i, -, hi⟩ := List.mem_map.1 this
    rw [Option.getD_some, ← hi]
    have := argmaxTrue_le_length (wm.map fun r => !A.eq (r.fill i) f)
    simpa using this

theorem collapse_used {n : ℕ} {f : F} {wm : WM F s} (hu : Used A n wm) (hn : 1 ≤ n) :
    (collapse A f wm).length = wm.length ∧ Used A n (collapse A f wm) := by
  unfold collapse
  simp only
  split
  · exact ⟨rfl, hu⟩
  · have := indexNotFilled_le (A := A) f wm
    exact ⟨collapseRows_length this, collapseRows_used this (by omega) hu hn⟩

theorem collapseCopy_used {n : ℕ} {f : F} {wm init : WM F s} (hl : init.length = wm.length) (hu : Used A n wm)
    (hn : 1 ≤ n) : (collapseCopy A f wm init).1.length = wm.length ∧ (collapseCopy A f wm init).2.length = wm.length ∧
      Used A n (collapseCopy A f wm init).1 := by
  unfold collapseCopy
  simp only
  split
  · exact ⟨rfl, hl, hu⟩
  · have := indexNotFilled_le (A := A) f wm
    exact ⟨collapseRows_length this, (collapseRows_length (by rw [hl]; exact this)).trans hl,
      collapseRows_used this (by omega) hu hn⟩

/-! ### one transfer -/

/-- The exceptions possible: `IndexError` only if numbers can be incomparable, `TypeError` only if `T`. -/
def MayRaise (A : Arith F) (T : Prop) (e : Err) : Prop := (e = .indexError ∧ ¬ A.NoNaN) ∨ (e = .typeError ∧ T)

/-- The shortage tweak keeps the volumes or raises `TypeError`. -/
def TweakKeeps (T : Prop) (ops : ICOps F s) : Prop :=
  ∀ w w0 e, w0.length = w.length → Sat (fun x => x = .typeError ∧ T) (fun w' => w'.map Row.vol = w.map Row.vol)
    (ops.tweak w w0 e)

theorem pyDiv_ok {a b : F} (h : A.eq b A.zero = false) : pyDiv A a b = .ok (A.div a b) := by
  unfold pyDiv; rw [h]; rfl

theorem length_of_vols {w w' : WM F s} (h : w'.map Row.vol = w.map Row.vol) : w'.length = w.length := by
  have := congrArg List.length h
  simpa using this

theorem finishCapture_safe (hA : A.Lawful) {T : Prop} {ops : ICOps F s} (hT : TweakKeeps T ops) (nFree nInit : F)
    {wm init : WM F s} (hl : init.length = wm.length) {n : ℕ} (hu : Used A n wm) (hn : 1 ≤ n) :
    Sat (MayRaise A T) (fun r => r.2.length = wm.length ∧ Used A n r.2)
      (finishCapture A ops.filled ops.trapped ops.tweak nFree nInit wm init) := by
  unfold finishCapture
  obtain ⟨h1, h2, h3⟩ := collapseCopy_used (f := ops.filled) hl hu hn
  generalize collapseCopy A ops.filled wm init = w at h1 h2 h3
  obtain ⟨w, i⟩ := w
  simp only at h1 h2 h3 ⊢
  split
  · exact ⟨h1, h3⟩
  · rename_i hne
    have hd : A.eq (A.sub (ops.trapped w) nInit) A.zero = false := by
      cases hd : A.eq (A.sub (ops.trapped w) nInit) A.zero with
      | false => rfl
      | true => exact absurd (hA.sub_zero _ _ hd) hne
    rw [pyDiv_ok hd]
    simp only [bind, Except.bind]
    split
    · have := hT w i (A.div nFree (A.sub (ops.trapped w) nInit)) (h2.trans h1.symm)
      cases ht : ops.tweak w i (A.div nFree (A.sub (ops.trapped w) nInit)) with
      | error e =>
        rw [ht] at this
        exact Or.inr this
      | ok w' =>
        rw [ht] at this
        have hv : w'.map Row.vol = w.map Row.vol := this
        obtain ⟨g1, g2⟩ := collapse_used (f := ops.filled) (used_congr hv h3) hn
        exact ⟨g1.trans ((length_of_vols hv).trans h1), g2⟩
    · obtain ⟨g1, g2⟩ := collapse_used (f := ops.filled) h3 hn
      exact ⟨g1.trans h1, g2⟩

/-- A cloud only if there are electrons: what `CCDPhase.electron_volume` and the clamp guarantee, also for NaN. -/
def FillOk (A : Arith F) (fill : F → F) : Prop := ∀ n, A.lt A.zero n = false → A.lt A.zero (fill n) = false

theorem icCapture_safe (hA : A.Lawful) {T : Prop} {ops : ICOps F s} (hT : TweakKeeps T ops) {fill : F → F}
    (hf : FillOk A fill) (nFree : F) {wm : WM F s} {k : ℕ} (hu : Used A k wm) (hk : k < wm.length) :
    Sat (MayRaise A T) (fun r => r.2.length = wm.length ∧ Used A (k + 1) r.2) (icCapture A ops fill nFree wm) := by
  unfold icCapture
  simp only
  have hmax := maxWatermarkIndex_le hA hu hk
  have hmin := maxWatermarkIndex_ge (A := A) wm
  have hidx := index_cases hA hu hk (fill nFree) (maxWatermarkIndex A wm)
  generalize watermarkIndexAboveCloud A (fill nFree) wm (maxWatermarkIndex A wm) = idx at hidx
  generalize maxWatermarkIndex A wm = mx at hmax hmin hidx
  split
  · -- first capture
    unfold icFirstCapture
    simp only
    have hu1 : Used A (k + 1) (wm.modify 0 fun _ => ⟨fill nFree, fun _ => ops.filled⟩) := by
      intro i r hi hr
      rw [List.getElem?_modify] at hr
      simp only [show ¬ 0 = i by omega, if_false, id_map'] at hr
      exact hu i r (by omega) hr
    have hl1 : (wm.modify 0 fun _ => (⟨fill nFree, fun _ => ops.filled⟩ : Row F s)).length = wm.length := by simp
    generalize (wm.modify 0 fun _ => (⟨fill nFree, fun _ => ops.filled⟩ : Row F s)) = w at hu1 hl1
    split
    · exact ⟨hl1, hu1⟩
    · rename_i hne
      rw [pyDiv_ok (by simpa using hne)]
      simp only [bind, Except.bind]
      split
      · have := hT w (setVol wm 0 (fill nFree)) (A.div nFree (ops.trapped w)) (by rw [setVol_length, hl1])
        cases ht : ops.tweak w (setVol wm 0 (fill nFree)) (A.div nFree (ops.trapped w)) with
        | error e => rw [ht] at this; exact Or.inr this
        | ok w' =>
          rw [ht] at this
          have hv : w'.map Row.vol = w.map Row.vol := this
          exact ⟨(length_of_vols hv).trans hl1, used_congr hv hu1⟩
      · exact ⟨hl1, hu1⟩
  · rename_i hfirst
    refine Sat.bind (Q := fun r : WM F s × WM F s => r.1.length = wm.length ∧ r.2.length = wm.length ∧ Used A (k + 1) r.1) ?_ ?_
    · split
      · rename_i hbr
        unfold splitAtCloud
        split
        · rename_i hc
          -- the cloud is not empty, so there are watermarks and the index is that of one of them
          have hmx : mx ≠ -1 := by
            intro hm
            have : A.lt A.zero nFree = false := by
              cases hn : A.lt A.zero nFree with
              | false => rfl
              | true => exact absurd ⟨hm, hn⟩ hfirst
            rw [hf nFree this] at hc
            exact absurd hc.1 (by simp)
          have hne := hA.pos_ne _ hc.1
          have hle : idx ≤ mx := by omega
          have h0 : 0 ≤ idx := by
            rcases hidx with h | ⟨-, h | h | h⟩
            · rw [h.1] at hne; cases hne
            · omega
            · exact h.1
            · omega
          have hlt : idx.toNat < k := by omega
          obtain ⟨w, e1, e2, e3⟩ := cyUpdateVolumes_used (c := fill nFree) hu hk hlt
          unfold updateVolumes
          rw [if_neg (by omega), e1]
          exact ⟨e2, e2, e3⟩
        · exact ⟨rfl, rfl, hu.mono (by omega)⟩
      · rename_i hbr
        unfold newTopWatermark
        split
        · rename_i hb
          have hlt : idx.toNat < k + 1 := by
            rcases hidx with h | ⟨-, h | h | h⟩ <;> omega
          exact ⟨setVol_length _ _ _, setVol_length _ _ _, setVol_used (hu.mono (by omega)) hlt⟩
        · rename_i hb
          left
          refine ⟨rfl, ?_⟩
          rcases hidx with h | ⟨-, h | h | h⟩
          · omega
          · omega
          · omega
          · exact h.2
    · rintro ⟨w, i⟩ ⟨h1, h2, h3⟩
      simp only at h1 h2 h3 ⊢
      have hv := mapFills_vols 0 (idx + 1).toNat (fun _ _ => ops.filled) w
      have := finishCapture_safe hA hT nFree (ops.trapped wm) (wm := mapFills 0 (idx + 1).toNat (fun _ _ => ops.filled) w)
        (init := i) (by rw [mapFills_length, h1, h2]) (used_congr hv h3) (by omega)
      refine this.mono fun r hr => ⟨?_, hr.2⟩
      rw [hr.1, mapFills_length, h1]

theorem icStep_safe (hA : A.Lawful) {T : Prop} {ops : ICOps F s} (hT : TweakKeeps T ops) {fill : F → F}
    (hf : FillOk A fill) (nFree : F) {wm : WM F s} {k : ℕ} (hu : Used A k wm) (hk : k < wm.length) :
    Sat (MayRaise A T) (fun r => r.2.length = wm.length ∧ Used A (k + 1) r.2) (icStep A ops fill nFree wm) := by
  unfold icStep icRelease
  simp only
  have hv := mapFills_vols 0 (maxWatermarkIndex A wm + 1).toNat ops.release wm
  have hl := mapFills_length 0 (maxWatermarkIndex A wm + 1).toNat ops.release wm
  refine Sat.bind (icCapture_safe hA hT hf _ (used_congr hv hu) (by rw [hl]; exact hk)) ?_
  rintro ⟨c, w⟩ ⟨h1, h2⟩
  exact ⟨h1.trans hl, h2⟩

theorem tweakKeeps_instant (dens p : Fin s → F) : TweakKeeps False (instantOps A dens p) := by
  intro w w0 e hl
  exact notEnough_vols w w0 e hl

theorem tweakKeeps_trackTime (dens : Fin s → F) (conv : Fin s → F → F) (t : F) :
    TweakKeeps True (trackTimeOps A dens conv t) := by
  intro w w0 e hl
  exact ⟨rfl, trivial⟩

end Fp
end Arctic
