import Verif.Lemmas.Columns
import Verif.Lemmas.InstantStep

/-!
# Traps of zero density, and empty traps offered no charge, do nothing
-/

set_option linter.unusedSectionVars false
set_option linter.unusedVariables false

namespace Arctic

variable {K : Type} [Field K] [LinearOrder K] [IsStrictOrderedRing K] {s : ℕ}

theorem cyNTrapped_zero_dens {dens : Fin s → K} (hd : ∀ j, dens j = 0) (wm : WM K s) : cyNTrapped wm dens = 0 := by
  unfold cyNTrapped
  apply List.sum_eq_zero
  intro x hx
  rw [List.mem_map] at hx
  obtain ⟨r, -, rfl⟩ := hx
  exact Finset.sum_eq_zero fun j _ => by rw [hd, mul_zero]

theorem finishCapture_zero {filled : K} {trapped : WM K s → K} {tweak : WM K s → WM K s → K → Except Err (WM K s)}
    (ht : ∀ w, trapped w = 0) (n : K) (wm init : WM K s) :
    ∃ w, finishCapture filled trapped tweak n 0 wm init = .ok (0, w) := by
  unfold finishCapture
  simp only [ht, if_true]
  exact ⟨_, rfl⟩

theorem slowStep_zero_dens {dens : Fin s → K} (hd : ∀ j, dens j = 0) {p : Probs K s} {f : K → K} {n net : K}
    {wm w : WM K s} (h : slowStep dens p f n wm = .ok (net, w)) : net = 0 := by
  unfold slowStep at h
  simp only [cyNTrapped_zero_dens hd] at h
  split at h
  · unfold slowFirstCapture at h
    simp only [cyNTrapped_zero_dens hd, if_true] at h
    injection h with h; injection h with h1 h2; exact h1.symm
  · obtain ⟨⟨n', init, idx, wm1⟩, h1, h⟩ := bind_eq_ok h
    simp only at h
    obtain ⟨⟨c, w'⟩, h2, h⟩ := bind_eq_ok h
    obtain ⟨w2, h3⟩ := finishCapture_zero (filled := (1 : K)) (trapped := fun w : WM K s => (0 : K))
      (tweak := fun w w0 e => .ok (notEnough w w0 e)) (fun w => rfl) n'
      (mapFills 0 (idx + 1).toNat (fun j x => x * p.fromFull j + (1 - x) * p.fromEmpty j) wm1) init
    rw [h3] at h2
    injection h2 with h2; injection h2 with h2 h4
    injection h with h; injection h with h5 h6
    rw [← h5, ← h2, neg_zero]

theorem icStep_zero_dens {ops : ICOps K s} (ht : ∀ w, ops.trapped w = 0) {f : K → K} {n net : K}
    {wm w : WM K s} (h : icStep ops f n wm = .ok (net, w)) : net = 0 := by
  unfold icStep icRelease at h
  simp only [ht] at h
  obtain ⟨⟨c, w1⟩, h1, h⟩ := bind_eq_ok h
  injection h with h
  injection h with h2 h3
  suffices hc : c = 0 by rw [← h2, hc]; simp
  unfold icCapture at h1
  simp only [ht] at h1
  split at h1
  · unfold icFirstCapture at h1
    simp only [ht, if_true] at h1
    injection h1 with h1; injection h1 with h4 h5; exact h4.symm
  · obtain ⟨⟨wa, ia⟩, h4, h1⟩ := bind_eq_ok h1
    simp only at h1
    obtain ⟨w2, h5⟩ := finishCapture_zero (filled := ops.filled) (trapped := ops.trapped)
      (tweak := ops.tweak) ht (n + (0 - 0)) (mapFills 0 (watermarkIndexAboveCloud (f (n + (0 - 0)))
        (mapFills 0 (maxWatermarkIndex wm + 1).toNat ops.release wm)
        (maxWatermarkIndex (mapFills 0 (maxWatermarkIndex wm + 1).toNat ops.release wm)) + 1).toNat
        (fun _ _ => ops.filled) wa) ia
    rw [h5] at h1
    injection h1 with h1; injection h1 with h6 h7; exact h6.symm

/-- Traps of zero density release and capture nothing. -/
theorem Mgr.step_zero_dens {m m' : Mgr K} (hd : ∀ j, m.dens j = 0) {n t net : K} {f : K → K}
    (h : m.step n t f = .ok (net, m')) : net = 0 := by
  unfold Mgr.step at h
  simp only at h
  split at h <;> obtain ⟨⟨net1, wm⟩, h1, h⟩ := bind_eq_ok h <;> injection h with h <;>
    injection h with h2 h3 <;> rw [← h2]
  · exact slowStep_zero_dens hd h1
  · exact icStep_zero_dens (fun w => cyNTrapped_zero_dens hd w) h1
  · exact icStep_zero_dens (fun w => cyNTrapped_zero_dens hd _) h1

theorem groupsStep_zero_dens {ms ms' : List (Mgr K)} (hd : ∀ m ∈ ms, ∀ j, m.dens j = 0) {n t net : K} {f : K → K}
    (h : groupsStep n t f ms = .ok (net, ms')) : net = 0 := by
  induction ms generalizing net ms' with
  | nil => unfold groupsStep at h; injection h with h; injection h with h1 h2; exact h1.symm
  | cons m ms ih =>
    unfold groupsStep at h
    obtain ⟨⟨net1, m1⟩, h1, h⟩ := bind_eq_ok h
    obtain ⟨⟨net2, ms2⟩, h2, h⟩ := bind_eq_ok h
    injection h with h; injection h with h3 h4
    rw [← h3, ih (fun m hm => hd m (List.mem_cons_of_mem _ hm)) h2,
      Mgr.step_zero_dens (hd m List.mem_cons_self) h1, add_zero]

/-! ### no charge -/

theorem maxIdx_Z (z : ℕ) : maxWatermarkIndex (Z z : WM K s) = -1 := by
  unfold maxWatermarkIndex argmaxTrue Z zeroRow
  cases z with
  | zero => simp
  | succ z => rw [List.replicate_succ]; simp [List.findIdx_cons]

theorem cyNTrapped_Z (z : ℕ) (dens : Fin s → K) : cyNTrapped (Z z : WM K s) dens = 0 := by
  unfold cyNTrapped Z zeroRow
  simp

theorem toFillFractions_Z (c : Fin s → K → K) (z : ℕ) : toFillFractions c (Z z : WM K s) = Z z := by
  unfold toFillFractions
  have : argmaxTrue ((Z z : WM K s).map fun r => decide (r.vol = 0)) = 0 := by
    have := maxIdx_Z (K := K) (s := s) z
    unfold maxWatermarkIndex at this
    omega
  rw [this]
  exact mapFills_none _ _ _ _ (by omega)

theorem indexNotFilled_Z (filled : K) (z : ℕ) : indexNotFilled filled (Z z : WM K s) ≤ 1 := by
  cases z with
  | zero =>
    by_contra h
    have := indexNotFilled_length filled (Z 0 : WM K s) (by omega)
    rw [Z_length] at this
    omega
  | succ z =>
    have := indexNotFilled_le filled ([] : WM K s) z
    simp only [List.nil_append, List.length_nil] at this
    omega

theorem collapseCopy_Z (filled : K) (z : ℕ) : collapseCopy filled (Z z : WM K s) (Z z) = (Z z, Z z) := by
  unfold collapseCopy
  simp only
  rw [if_pos (indexNotFilled_Z filled z)]

theorem finishCapture_Z {filled : K} {trapped : WM K s → K} {tweak : WM K s → WM K s → K → Except Err (WM K s)}
    (n n0 : K) (z : ℕ) (ht : trapped (Z z) = n0) :
    finishCapture filled trapped tweak n n0 (Z z) (Z z) = .ok (0, Z z) := by
  unfold finishCapture
  rw [collapseCopy_Z]
  simp only [ht, if_true]

theorem splitAtCloud_zero (idx mx : ℤ) (wm init : WM K s) :
    splitAtCloud 0 idx mx wm init = .ok (wm, init, mx) := by
  unfold splitAtCloud
  rw [if_neg (by simp)]

theorem slowStep_Z (dens : Fin s → K) (p : Probs K s) {f : K → K} (hf : ∀ n, n ≤ 0 → f n = 0) {n : K} (hn : n ≤ 0)
    (z : ℕ) : slowStep dens p f n (Z z) = .ok (0, Z z) := by
  have hidx : ∀ mx : ℤ, watermarkIndexAboveCloud (0 : K) (Z z : WM K s) mx = -1 := fun mx => by
    unfold watermarkIndexAboveCloud; rw [if_pos rfl]
  unfold slowStep
  simp only [maxIdx_Z, hf n hn, hidx, cyNTrapped_Z]
  rw [if_neg (fun h => absurd h.2 (not_lt.2 hn)), if_pos (Or.inl le_rfl)]
  unfold slowCloudBelow
  simp only [splitAtCloud_zero, bind_ok]
  have h0 : mapFills ((-1 : ℤ) + 1).toNat ((-1 : ℤ) + 1).toNat (fun j x => x * p.fromRelease j) (Z z : WM K s) = Z z :=
    mapFills_none _ _ _ _ le_rfl
  simp only [h0, cyNTrapped_Z, sub_zero, add_zero, hf n hn, hidx, splitAtCloud_zero, bind_ok]
  rw [mapFills_none _ _ _ _ (by simp), finishCapture_Z _ _ _ (cyNTrapped_Z _ _), bind_ok]
  simp

theorem icStep_Z (ops : ICOps K s) {f : K → K} (hf : ∀ n, n ≤ 0 → f n = 0) {n : K} (hn : n ≤ 0)
    (z : ℕ) : icStep ops f n (Z z) = .ok (0, Z z) := by
  have hidx : ∀ mx : ℤ, watermarkIndexAboveCloud (0 : K) (Z z : WM K s) mx = -1 := fun mx => by
    unfold watermarkIndexAboveCloud; rw [if_pos rfl]
  unfold icStep icRelease
  simp only [maxIdx_Z]
  rw [mapFills_none _ _ _ _ (by simp)]
  unfold icCapture
  simp only [maxIdx_Z, sub_self, add_zero, hf n hn, hidx]
  rw [if_neg (fun h => absurd h.2 (not_lt.2 hn)), if_pos (Or.inl le_rfl)]
  simp only [splitAtCloud_zero, bind_ok]
  rw [mapFills_none _ _ _ _ (by simp), finishCapture_Z _ _ _ rfl, bind_ok, sub_zero]

theorem Mgr.empty_wm (m : Mgr K) (h : m.empty = m) : m.wm = Z m.wm.length := by
  have : m.empty.wm = m.wm.map fun _ => zeroRow K m.s := rfl
  have h2 : m.wm = m.wm.map fun _ => zeroRow K m.s := by
    obtain ⟨s, d, k, wm⟩ := m
    unfold Mgr.empty at h
    simp only [Mgr.mk.injEq, heq_eq_eq, true_and] at h
    exact h.symm
  rw [List.map_const'] at h2
  exact h2

/-- Empty traps that are offered no electrons stay empty. -/
theorem Mgr.step_empty_zero {m : Mgr K} (h : m.empty = m) {f : K → K} (hf : ∀ n, n ≤ 0 → f n = 0) {n : K} (hn : n ≤ 0)
    (t : K) : m.step n t f = .ok (0, m) := by
  have hw := m.empty_wm h
  obtain ⟨s, d, k, wm⟩ := m
  simp only at hw
  rw [hw]
  unfold Mgr.step
  cases k with
  | slow p => simp only; rw [slowStep_Z _ _ hf hn]; rfl
  | instant p => simp only; rw [icStep_Z _ hf hn]; rfl
  | trackTime c => simp only; rw [icStep_Z _ hf hn]; rfl

theorem groupsStep_empty_zero {ms : List (Mgr K)} (h : ms.map Mgr.empty = ms) {f : K → K} (hf : ∀ n, n ≤ 0 → f n = 0)
    {n : K} (hn : n ≤ 0) (t : K) : groupsStep n t f ms = .ok (0, ms) := by
  induction ms with
  | nil => rfl
  | cons m ms ih =>
    rw [List.map_cons] at h
    injection h with h1 h2
    unfold groupsStep
    rw [Mgr.step_empty_zero h1 hf hn, ih h2]
    simp only [bind_ok, add_zero]

theorem ATM.react_empty_zero {a : ATM K} (h : emptied a.data = a.data) {f : K → K} (hf : ∀ n, n ≤ 0 → f n = 0)
    {n : K} (hn : n ≤ 0) (t : K) (ph : ℕ) : Sat (fun _ => True) (fun r => r = (0, a)) (a.react ph n t f) := by
  unfold ATM.react
  cases hp : a.data[ph]? with
  | none => trivial
  | some ms =>
    simp only
    have hms : ms.map Mgr.empty = ms := by
      have : (emptied a.data)[ph]? = some (ms.map Mgr.empty) := by
        unfold emptied; rw [List.getElem?_map, hp]; rfl
      rw [h, hp] at this
      injection this with this
      exact this.symm
    rw [groupsStep_empty_zero hms hf hn]
    change ((0 : K), { a with data := a.data.set ph ms }) = (0, a)
    congr 1
    have : a.data.set ph ms = a.data := by
      apply List.ext_getElem?
      intro i
      rw [List.getElem?_set]
      split
      · rename_i hi; subst hi
        split
        · exact hp.symm
        · rename_i hl; obtain ⟨hl', -⟩ := List.getElem?_eq_some_iff.1 hp; exact absurd hl' hl
      · rfl
    rw [this]

/-! ### writing back nothing -/

/-- Adding zero electrons to a non-negative pixel. -/
theorem writeAll_zero {img img' : Image K} (h0 : ∀ r c, 0 ≤ img.px r c) {row0 : ℤ} {c : ℕ} {net mult : K}
    (hn : net = 0) {rel : List (ℤ × K)} (h : writeAll img row0 c net mult rel = .ok img') : img' = img := by
  subst hn
  induction rel generalizing img with
  | nil => unfold writeAll at h; injection h with h; exact h.symm
  | cons o rel ih =>
    obtain ⟨off, frac⟩ := o
    unfold writeAll at h
    obtain ⟨i1, h1, h2⟩ := bind_eq_ok h
    have : i1 = img := by
      unfold writeBack at h1
      obtain ⟨old, h3, h4⟩ := bind_eq_ok h1
      injection h4 with h4
      obtain ⟨-, -, -, rfl⟩ := read_ok h3
      rw [← h4]
      simp only [zero_mul, add_zero]
      rw [if_neg (not_lt.2 (h0 _ _))]
      unfold Image.set
      congr 1
      funext i j
      split
      · rename_i hij; rw [hij.1, hij.2]
      · rfl
    subst this
    exact ih h0 h2

end Arctic
