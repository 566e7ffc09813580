import Verif.Spec.Trail
import Verif.Spec.Readout
import Verif.Spec.Transfer
import Verif.Lemmas.Capture
import Verif.Lemmas.RefColumn
import Verif.Lemmas.NoCharge
import Verif.Lemmas.Columns

/-!
# Transfers of clouds that meet no traps, and the first one that does
-/

set_option linter.unusedSectionVars false
set_option linter.unusedVariables false

namespace Arctic

section step
variable {K : Type} [Field K] [LinearOrder K] [IsStrictOrderedRing K] {s : ℕ}

/-- The values of the lowest watermark `a` transfers after it was made. -/
def Kind.levelFill : Kind K s → K → ℕ → Fin s → K
  | .instant p, x, a => fun j => p x j ^ a
  | .trackTime _, x, a => fun _ => a * x
  | .slow p, x, a => fun j => (p x).fromEmpty j * (p x).fromRelease j ^ a

/-- Sensible release laws. -/
def Group.Fading (x : K) (g : Group K) : Prop :=
  (∀ j, 0 ≤ g.dens j) ∧
  match g.kind with
  | .instant p => ∀ j, 0 ≤ p x j ∧ p x j ≤ 1
  | .trackTime conv => (∀ j, conv j 0 = 1) ∧ ∀ j y z, 0 ≤ y → y ≤ z → 0 ≤ conv j z ∧ conv j z ≤ conv j y
  | .slow p => ProbsOk (p x)

/-- At most one watermark, of volume `v` and made `a` transfers ago. -/
def OneLevel (x : K) (v : K) (a : ℕ) (g : Group K) (m : Mgr K) : Prop :=
  ∃ z q, m = ⟨g.s, g.dens, g.kind, ⟨v, q⟩ :: Z (z + 1)⟩ ∧ (v ≠ 0 → q = g.kind.levelFill x a)

theorem trapped_one (dens : Fin s → K) (v : K) (q : Fin s → K) (z : ℕ) :
    cyNTrapped ((⟨v, q⟩ : Row K s) :: Z z) dens = v * ∑ j, dens j * q j := by
  unfold cyNTrapped Z
  rw [List.map_cons, List.sum_cons, List.map_replicate, List.sum_replicate]
  simp only [zeroRow, zero_mul, Finset.sum_const_zero, smul_zero, add_zero]
  rw [Finset.mul_sum]
  exact Finset.sum_congr rfl fun j _ => by ring

theorem maxIdx_one (v : K) (hv : v ≠ 0) (q : Fin s → K) (z : ℕ) :
    maxWatermarkIndex ((⟨v, q⟩ : Row K s) :: Z (z + 1)) = 0 := by
  have := maxWatermarkIndex_eq [(⟨v, q⟩ : Row K s)] z (by simpa using hv)
  simpa using this

theorem mapFills_one (g : Fin s → K → K) (v : K) (q : Fin s → K) (z : ℕ) :
    mapFills 0 1 g ((⟨v, q⟩ : Row K s) :: Z z) = ⟨v, fun j => g j (q j)⟩ :: Z z :=
  mapFills_prefix 1 g [⟨v, q⟩] (Z z) rfl

theorem fractions_one (conv : Fin s → K → K) (v : K) (hv : v ≠ 0) (q : Fin s → K) (z : ℕ) :
    toFillFractions conv ((⟨v, q⟩ : Row K s) :: Z (z + 1)) = ⟨v, fun j => conv j (q j)⟩ :: Z (z + 1) := by
  unfold toFillFractions
  have : argmaxTrue (((⟨v, q⟩ : Row K s) :: Z (z + 1)).map fun r => decide (r.vol = 0)) = 1 := by
    have := maxIdx_one v hv q z
    unfold maxWatermarkIndex at this
    omega
  rw [this, mapFills_one]

theorem fractions_stale (conv : Fin s → K → K) (q : Fin s → K) (z : ℕ) :
    toFillFractions conv ((⟨0, q⟩ : Row K s) :: Z z) = ⟨0, q⟩ :: Z z := by
  unfold toFillFractions
  have : argmaxTrue (((⟨0, q⟩ : Row K s) :: Z z).map fun r => decide (r.vol = 0)) = 0 := by
    unfold argmaxTrue
    simp [List.findIdx_cons]
  rw [this, mapFills_none _ _ _ _ le_rfl]

theorem finish_none (filled : K) (trapped : WM K s → K) (tweak) (n : K) (r : Row K s) (z : ℕ) :
    finishCapture filled trapped tweak n (trapped (r :: Z (z + 1))) (r :: Z (z + 1)) (r :: Z (z + 1)) =
      .ok (0, r :: Z (z + 1)) := by
  unfold finishCapture
  rw [(collapse_single filled r r z rfl).1]
  simp

/-- Instant capture: the cloud has no volume. -/
theorem icCapture_dark (ops : ICOps K s) (f : K → K) (n : K) (hn : 0 ≤ n) (hf : f n = 0) (v : K) (q : Fin s → K) (z : ℕ)
    (h0 : v = 0 → ∀ q, ops.trapped ((⟨0, q⟩ : Row K s) :: Z (z + 1)) = 0) :
    ∃ q', icCapture ops f n ((⟨v, q⟩ : Row K s) :: Z (z + 1)) = .ok (0, ⟨v, q'⟩ :: Z (z + 1)) ∧ (v ≠ 0 → q' = q) := by
  unfold icCapture
  simp only [hf, watermarkIndexAboveCloud, if_true]
  by_cases hv : v = 0
  · subst hv
    rw [maxIdx_stale ⟨0, q⟩ (z + 1) rfl]
    by_cases hn0 : 0 < n
    · rw [if_pos ⟨rfl, hn0⟩]
      refine ⟨fun _ => ops.filled, ?_, fun h => absurd rfl h⟩
      unfold icFirstCapture
      simp only [List.modify_cons, if_true, h0 rfl]
    · rw [if_neg (fun h => hn0 h.2), if_pos (Or.inr rfl), splitAtCloud_zero]
      simp only [bind, Except.bind]
      rw [mapFills_none _ _ _ _ (by simp)]
      exact ⟨q, finish_none _ _ _ _ _ _, fun h => absurd rfl h⟩
  · rw [maxIdx_one v hv q z, if_neg (by rintro ⟨h, -⟩; omega), if_pos (Or.inl (by omega)), splitAtCloud_zero]
    simp only [bind, Except.bind]
    rw [mapFills_none _ _ _ _ (by simp)]
    exact ⟨q, finish_none _ _ _ _ _ _, fun _ => rfl⟩

/-- Instant capture: first capture by a cloud with enough electrons. -/
theorem icCapture_bright (ops : ICOps K s) (f : K → K) (n : K) (hn : 0 < n) (q : Fin s → K) (z : ℕ) (c : K)
    (hc : ops.trapped ((⟨f n, fun _ => ops.filled⟩ : Row K s) :: Z (z + 1)) = c) (h0 : 0 ≤ c) (hle : c ≤ n) :
    icCapture ops f n ((⟨0, q⟩ : Row K s) :: Z (z + 1)) = .ok (c, ⟨f n, fun _ => ops.filled⟩ :: Z (z + 1)) := by
  unfold icCapture
  simp only
  rw [maxIdx_stale ⟨0, q⟩ (z + 1) rfl, if_pos ⟨rfl, hn⟩]
  unfold icFirstCapture
  simp only [List.modify_cons, if_true, hc]
  by_cases hc0 : c = 0
  · rw [if_pos hc0, hc0]
  · have : 0 < c := lt_of_le_of_ne h0 (Ne.symm hc0)
    rw [if_neg hc0, if_neg (by rw [div_lt_one this]; exact not_lt.2 hle)]

/-- What is held, as electrons of the watermark. -/
theorem held_level (g : Group K) (x : K) (a : ℕ) : g.held x a = match g.kind with
    | .trackTime conv => ∑ j, g.dens j * conv j (g.kind.levelFill x a j)
    | _ => ∑ j, g.dens j * g.kind.levelFill x a j := by
  unfold Group.held Kind.levelFill
  cases g.kind <;> rfl

/-- A cloud that meets no traps gains what they release. -/
theorem OneLevel.dark {x v : K} {a : ℕ} {g : Group K} {m : Mgr K} (h : OneLevel x v a g m) (hv0 : 0 ≤ v)
    (hg : g.Fading x) {f : K → K} {n : K} (hn : 0 ≤ n) (hf : f n = 0)
    (hf' : f (n + v * (g.held x a - g.held x (a + 1))) = 0) (hr : 0 ≤ g.held x a - g.held x (a + 1)) :
    ∃ m', m.step n x f = .ok (v * (g.held x a - g.held x (a + 1)), m') ∧ OneLevel x v (a + 1) g m' := by
  obtain ⟨z, q, rfl, hq⟩ := h
  obtain ⟨s, dens, kind⟩ := g
  have hn' : 0 ≤ n + v * ((⟨s, dens, kind⟩ : Group K).held x a - (⟨s, dens, kind⟩ : Group K).held x (a + 1)) := by
    have := mul_nonneg hv0 hr
    linarith
  cases kind with
  | instant p =>
    simp only [Group.held, Kind.levelFill] at *
    have e0 : v = 0 → ∀ q, (instantOps dens (p x)).trapped ((⟨0, q⟩ : Row K s) :: Z (z + 1)) = 0 := by
      intro _ q
      change cyNTrapped _ _ = _
      rw [trapped_one, zero_mul]
    have hrel : icRelease (instantOps dens (p x)) ((⟨v, q⟩ : Row K s) :: Z (z + 1)) =
        (v * (∑ j, dens j * p x j ^ a - ∑ j, dens j * p x j ^ (a + 1)),
          ⟨v, if v = 0 then q else fun j => p x j ^ (a + 1)⟩ :: Z (z + 1)) := by
      unfold icRelease
      by_cases hv : v = 0
      · subst hv
        rw [maxIdx_stale ⟨0, q⟩ (z + 1) rfl, mapFills_none _ _ _ _ (by simp)]
        simp
      · rw [maxIdx_one v hv q z]
        simp only [zero_add, Int.toNat_one, mapFills_one, if_neg hv]
        change (cyNTrapped _ _ - cyNTrapped _ _, _) = _
        rw [trapped_one, trapped_one, hq hv]
        simp only [instantOps, ← pow_succ]
        rw [← mul_sub]
    obtain ⟨q', c1, c2⟩ := icCapture_dark (instantOps dens (p x)) f _ hn' hf' v
      (if v = 0 then q else fun j => p x j ^ (a + 1)) z e0
    refine ⟨⟨s, dens, .instant p, ⟨v, q'⟩ :: Z (z + 1)⟩, ?_, z, q', rfl, fun hv => ?_⟩
    · simp only [Mgr.step, icStep, hrel, c1, bind, Except.bind, sub_zero]
    · rw [c2 hv, if_neg hv]
      rfl
  | trackTime conv =>
    simp only [Group.held, Kind.levelFill] at *
    have e0 : v = 0 → ∀ q, (trackTimeOps dens conv x).trapped ((⟨0, q⟩ : Row K s) :: Z (z + 1)) = 0 := by
      intro _ q
      change cyNTrapped (toFillFractions _ _) _ = _
      rw [fractions_stale, trapped_one, zero_mul]
    have hrel : icRelease (trackTimeOps dens conv x) ((⟨v, q⟩ : Row K s) :: Z (z + 1)) =
        (v * (∑ j, dens j * conv j (a * x) - ∑ j, dens j * conv j ((a + 1 : ℕ) * x)),
          ⟨v, if v = 0 then q else fun j => (a + 1 : ℕ) * x⟩ :: Z (z + 1)) := by
      unfold icRelease
      by_cases hv : v = 0
      · subst hv
        rw [maxIdx_stale ⟨0, q⟩ (z + 1) rfl, mapFills_none _ _ _ _ (by simp)]
        simp
      · rw [maxIdx_one v hv q z]
        simp only [zero_add, Int.toNat_one, mapFills_one, if_neg hv]
        change (cyNTrapped (toFillFractions _ _) _ - cyNTrapped (toFillFractions _ _) _, _) = _
        rw [fractions_one _ _ hv, fractions_one _ _ hv, trapped_one, trapped_one, hq hv, ← mul_sub]
        simp only [trackTimeOps]
        have e : (a : K) * x + x = (a + 1 : ℕ) * x := by push_cast; ring
        simp only [e]
    obtain ⟨q', c1, c2⟩ := icCapture_dark (trackTimeOps dens conv x) f _ hn' hf' v
      (if v = 0 then q else fun j => (a + 1 : ℕ) * x) z e0
    refine ⟨⟨s, dens, .trackTime conv, ⟨v, q'⟩ :: Z (z + 1)⟩, ?_, z, q', rfl, fun hv => ?_⟩
    · simp only [Mgr.step, icStep, hrel, c1, bind, Except.bind, sub_zero]
    · rw [c2 hv, if_neg hv]
      rfl
  | slow p =>
    simp only [Group.held, Kind.levelFill] at *
    simp only [Mgr.step, slowStep, hf, watermarkIndexAboveCloud, if_true]
    by_cases hv : v = 0
    · subst hv
      rw [maxIdx_stale ⟨0, q⟩ (z + 1) rfl]
      by_cases hn0 : 0 < n
      · rw [if_pos ⟨rfl, hn0⟩]
        refine ⟨⟨s, dens, .slow p, ⟨0, (p x).fromEmpty⟩ :: Z (z + 1)⟩, ?_, z, _, rfl, fun h => absurd rfl h⟩
        unfold slowFirstCapture
        simp only [List.modify_cons, if_true, trapped_one, zero_mul, bind, Except.bind]
      · rw [if_neg (fun h => hn0 h.2), if_pos (Or.inr rfl)]
        unfold slowCloudBelow
        rw [splitAtCloud_zero]
        simp only [bind, Except.bind]
        rw [mapFills_none _ _ _ _ (by simp)]
        simp only [sub_self, add_zero, hf, watermarkIndexAboveCloud, if_true]
        rw [splitAtCloud_zero]
        simp only
        rw [mapFills_none _ _ _ _ (by simp), finish_none 1 (fun w => cyNTrapped w dens)]
        exact ⟨⟨s, dens, .slow p, ⟨0, q⟩ :: Z (z + 1)⟩, by simp, z, q, rfl, fun h => absurd rfl h⟩
    · rw [maxIdx_one v hv q z, if_neg (by rintro ⟨h, -⟩; omega), if_pos (Or.inl (by omega))]
      unfold slowCloudBelow
      rw [splitAtCloud_zero]
      simp only [bind, Except.bind, Int.reduceNeg, Int.reduceAdd, Int.toNat_zero, Int.toNat_one, mapFills_one, zero_add]
      rw [trapped_one, trapped_one]
      have e1 : v * ∑ j, dens j * q j - v * ∑ j, dens j * (q j * (p x).fromRelease j) =
          v * (∑ j, dens j * ((p x).fromEmpty j * (p x).fromRelease j ^ a) -
            ∑ j, dens j * ((p x).fromEmpty j * (p x).fromRelease j ^ (a + 1))) := by
        rw [hq hv, mul_sub]
        congr 2
        exact Finset.sum_congr rfl fun j _ => by rw [pow_succ]; ring
      rw [e1, hf']
      simp only [watermarkIndexAboveCloud, if_true]
      rw [splitAtCloud_zero]
      simp only [Int.reduceNeg, Int.reduceAdd, Int.toNat_zero]
      rw [mapFills_none _ _ _ _ (by simp)]
      have e2 : finishCapture 1 (fun w => cyNTrapped w dens) (fun w w0 e => .ok (notEnough w w0 e))
          (n + v * (∑ j, dens j * ((p x).fromEmpty j * (p x).fromRelease j ^ a) -
            ∑ j, dens j * ((p x).fromEmpty j * (p x).fromRelease j ^ (a + 1)))) (v * ∑ j, dens j * q j)
          ((⟨v, fun j => q j * (p x).fromRelease j⟩ : Row K s) :: Z (z + 1)) (⟨v, q⟩ :: Z (z + 1)) =
          .ok (-(v * (∑ j, dens j * ((p x).fromEmpty j * (p x).fromRelease j ^ a) -
            ∑ j, dens j * ((p x).fromEmpty j * (p x).fromRelease j ^ (a + 1)))),
            (⟨v, fun j => q j * (p x).fromRelease j⟩ : Row K s) :: Z (z + 1)) := by
        unfold finishCapture
        rw [(collapse_single 1 ⟨v, fun j => q j * (p x).fromRelease j⟩ ⟨v, q⟩ z rfl).1]
        simp only [trapped_one, (collapse_single 1 ⟨v, fun j => q j * (p x).fromRelease j⟩ ⟨v, q⟩ z rfl).2]
        have e3 := mul_nonneg hv0 hr
        rw [← e1] at e3 ⊢
        split
        · rename_i he
          rw [he]; simp
        · rename_i he
          rw [if_neg, neg_sub]
          rintro ⟨h1, -⟩
          have hneg : v * ∑ j, dens j * (q j * (p x).fromRelease j) - v * ∑ j, dens j * q j < 0 :=
            lt_of_le_of_ne (by linarith) (sub_ne_zero.2 he)
          have := div_nonpos_of_nonneg_of_nonpos (a := n + (v * ∑ j, dens j * q j - v * ∑ j, dens j * (q j * (p x).fromRelease j)))
            (by linarith) hneg.le
          exact absurd h1 (not_lt.2 this)
      rw [e2]
      refine ⟨⟨s, dens, .slow p, (⟨v, fun j => q j * (p x).fromRelease j⟩ : Row K s) :: Z (z + 1)⟩, by simp, z, _, rfl, fun _ => ?_⟩
      rw [hq hv]
      funext j
      simp only [Kind.levelFill]
      rw [pow_succ]; ring

/-- The first cloud that meets traps loses what they capture. -/
theorem OneLevel.bright {x : K} {a : ℕ} {g : Group K} {m : Mgr K} (h : OneLevel x 0 a g m) (hg : g.Fading x)
    {f : K → K} {n : K} (hn : 0 < n) (h0 : 0 ≤ f n * g.held x 0) (hle : f n * g.held x 0 ≤ n) :
    ∃ m', m.step n x f = .ok (-(f n * g.held x 0), m') ∧ OneLevel x (f n) 0 g m' := by
  obtain ⟨z, q, rfl, -⟩ := h
  obtain ⟨s, dens, kind⟩ := g
  cases kind with
  | instant p =>
    simp only [Group.held, pow_zero, mul_one] at *
    have hrel : icRelease (instantOps dens (p x)) ((⟨0, q⟩ : Row K s) :: Z (z + 1)) = (0, ⟨0, q⟩ :: Z (z + 1)) := by
      unfold icRelease
      rw [maxIdx_stale ⟨0, q⟩ (z + 1) rfl, mapFills_none _ _ _ _ (by simp)]
      simp
    refine ⟨⟨s, dens, .instant p, ⟨f n, fun _ => 1⟩ :: Z (z + 1)⟩, ?_, z, _, rfl, fun _ => by funext j; simp [Kind.levelFill]⟩
    have := icCapture_bright (instantOps dens (p x)) f n hn q z (f n * ∑ j, dens j)
      (by change cyNTrapped _ _ = _; rw [trapped_one]; simp [instantOps]) h0 hle
    simp only [Mgr.step, icStep, hrel, add_zero, this, bind, Except.bind, zero_sub]
    rfl
  | trackTime conv =>
    have hc0 : ∀ j, conv j 0 = 1 := hg.2.1
    simp only [Group.held, Nat.cast_zero, zero_mul, hc0, mul_one] at h0 hle ⊢
    have hrel : icRelease (trackTimeOps dens conv x) ((⟨0, q⟩ : Row K s) :: Z (z + 1)) = (0, ⟨0, q⟩ :: Z (z + 1)) := by
      unfold icRelease
      rw [maxIdx_stale ⟨0, q⟩ (z + 1) rfl, mapFills_none _ _ _ _ (by simp)]
      simp
    refine ⟨⟨s, dens, .trackTime conv, ⟨f n, fun _ => 0⟩ :: Z (z + 1)⟩, ?_, z, _, rfl, fun _ => by funext j; simp [Kind.levelFill]⟩
    have := icCapture_bright (trackTimeOps dens conv x) f n hn q z (f n * ∑ j, dens j)
      (by
        change cyNTrapped (toFillFractions _ _) _ = _
        by_cases hv : f n = 0
        · rw [hv, fractions_stale, trapped_one, zero_mul, zero_mul]
        · rw [fractions_one _ _ hv, trapped_one]; simp [trackTimeOps, hc0]) h0 hle
    simp only [Mgr.step, icStep, hrel, add_zero, this, bind, Except.bind, zero_sub]
    rfl
  | slow p =>
    simp only [Group.held, pow_zero, mul_one] at *
    refine ⟨⟨s, dens, .slow p, ⟨f n, (p x).fromEmpty⟩ :: Z (z + 1)⟩, ?_, z, _, rfl, fun _ => by
      funext j; simp [Kind.levelFill]⟩
    simp only [Mgr.step, slowStep]
    rw [maxIdx_stale ⟨0, q⟩ (z + 1) rfl, if_pos ⟨rfl, hn⟩]
    unfold slowFirstCapture
    simp only [List.modify_cons, if_true, trapped_one, bind, Except.bind]
    by_cases hc0 : f n * ∑ j, dens j * (p x).fromEmpty j = 0
    · rw [if_pos hc0, hc0, neg_zero]
    · have : 0 < f n * ∑ j, dens j * (p x).fromEmpty j := lt_of_le_of_ne h0 (Ne.symm hc0)
      rw [if_neg hc0, if_neg (by rw [div_lt_one this]; exact not_lt.2 hle)]

/-! ### several groups -/

theorem Group.Fading.held_nonneg {x : K} {g : Group K} (h : g.Fading x) (hx : 0 ≤ x) (a : ℕ) : 0 ≤ g.held x a := by
  obtain ⟨s, dens, kind⟩ := g
  obtain ⟨hd, h⟩ := h
  cases kind with
  | instant p => exact Finset.sum_nonneg fun j _ => mul_nonneg (hd j) (pow_nonneg (h j).1 a)
  | trackTime conv =>
    exact Finset.sum_nonneg fun j _ => mul_nonneg (hd j) (h.2 j 0 _ le_rfl (mul_nonneg (Nat.cast_nonneg a) hx)).1
  | slow p =>
    exact Finset.sum_nonneg fun j _ => mul_nonneg (hd j) (mul_nonneg (h.empty j).1 (pow_nonneg (h.release j).1 a))

theorem Group.Fading.held_anti {x : K} {g : Group K} (h : g.Fading x) (hx : 0 ≤ x) (a : ℕ) :
    g.held x (a + 1) ≤ g.held x a := by
  obtain ⟨s, dens, kind⟩ := g
  obtain ⟨hd, h⟩ := h
  cases kind with
  | instant p =>
    exact Finset.sum_le_sum fun j _ => mul_le_mul_of_nonneg_left
      (pow_le_pow_of_le_one (h j).1 (h j).2 (Nat.le_succ a)) (hd j)
  | trackTime conv =>
    refine Finset.sum_le_sum fun j _ => mul_le_mul_of_nonneg_left
      (h.2 j _ _ (mul_nonneg (Nat.cast_nonneg a) hx) ?_).2 (hd j)
    push_cast
    linarith
  | slow p =>
    exact Finset.sum_le_sum fun j _ => mul_le_mul_of_nonneg_left (mul_le_mul_of_nonneg_left
      (pow_le_pow_of_le_one (h.release j).1 (h.release j).2 (Nat.le_succ a)) (h.empty j).1) (hd j)

theorem heldBy_cons (g : Group K) (gs : List (Group K)) (x : K) (a : ℕ) :
    heldBy (g :: gs) x a = g.held x a + heldBy gs x a := by
  unfold heldBy
  rw [List.map_cons, List.sum_cons]

theorem heldBy_nonneg {x : K} {gs : List (Group K)} (h : ∀ g ∈ gs, g.Fading x) (hx : 0 ≤ x) (a : ℕ) : 0 ≤ heldBy gs x a := by
  unfold heldBy
  refine List.sum_nonneg fun y hy => ?_
  obtain ⟨g, hg, rfl⟩ := List.mem_map.1 hy
  exact (h g hg).held_nonneg hx a

theorem heldBy_anti {x : K} {gs : List (Group K)} (h : ∀ g ∈ gs, g.Fading x) (hx : 0 ≤ x) (a : ℕ) :
    heldBy gs x (a + 1) ≤ heldBy gs x a := by
  induction gs with
  | nil => exact le_rfl
  | cons g gs ih =>
    rw [heldBy_cons, heldBy_cons]
    exact add_le_add ((h g List.mem_cons_self).held_anti hx a) (ih fun g' h' => h g' (List.mem_cons_of_mem _ h'))

theorem levels_dark {x v : K} (hx : 0 ≤ x) (hv : 0 ≤ v) {a : ℕ} {f : K → K} {depth n : K} (hf : ∀ y, y ≤ depth → f y = 0)
    (hn : 0 ≤ n) {gs : List (Group K)} {ms : List (Mgr K)} (h : List.Forall₂ (OneLevel x v a) gs ms)
    (hg : ∀ g ∈ gs, g.Fading x) (hle : n + v * (heldBy gs x a - heldBy gs x (a + 1)) ≤ depth) :
    ∃ ms', groupsStep n x f ms = .ok (v * (heldBy gs x a - heldBy gs x (a + 1)), ms') ∧
      List.Forall₂ (OneLevel x v (a + 1)) gs ms' := by
  induction h with
  | nil => exact ⟨[], by simp [groupsStep, heldBy], .nil⟩
  | @cons g m gs ms h1 h2 ih =>
    have hg1 := hg g List.mem_cons_self
    have hg2 : ∀ g' ∈ gs, g'.Fading x := fun g' h' => hg g' (List.mem_cons_of_mem _ h')
    have r1 := mul_nonneg hv (sub_nonneg.2 (hg1.held_anti hx a))
    have r2 := mul_nonneg hv (sub_nonneg.2 (heldBy_anti hg2 hx a))
    rw [heldBy_cons, heldBy_cons] at hle ⊢
    have e : v * (g.held x a + heldBy gs x a - (g.held x (a + 1) + heldBy gs x (a + 1))) =
        v * (g.held x a - g.held x (a + 1)) + v * (heldBy gs x a - heldBy gs x (a + 1)) := by ring
    rw [e] at hle ⊢
    obtain ⟨m', g1, g2⟩ := h1.dark hv hg1 hn (hf _ (by linarith)) (hf _ (by linarith)) (sub_nonneg.2 (hg1.held_anti hx a))
    obtain ⟨ms', g3, g4⟩ := ih hg2 (by linarith)
    exact ⟨m' :: ms', by simp only [groupsStep, g1, g3, bind, Except.bind], .cons g2 g4⟩

theorem levels_bright {x : K} (hx : 0 ≤ x) {a : ℕ} {f : K → K} {n : K} (hn : 0 < n) (hf : 0 ≤ f n) {gs : List (Group K)}
    {ms : List (Mgr K)} (h : List.Forall₂ (OneLevel x 0 a) gs ms) (hg : ∀ g ∈ gs, g.Fading x)
    (hle : f n * heldBy gs x 0 ≤ n) :
    ∃ ms', groupsStep n x f ms = .ok (-(f n * heldBy gs x 0), ms') ∧ List.Forall₂ (OneLevel x (f n) 0) gs ms' := by
  induction h with
  | nil => exact ⟨[], by simp [groupsStep, heldBy], .nil⟩
  | @cons g m gs ms h1 h2 ih =>
    have hg1 := hg g List.mem_cons_self
    have hg2 : ∀ g' ∈ gs, g'.Fading x := fun g' h' => hg g' (List.mem_cons_of_mem _ h')
    have r1 := mul_nonneg hf (hg1.held_nonneg hx 0)
    have r2 := mul_nonneg hf (heldBy_nonneg hg2 hx 0)
    rw [heldBy_cons] at hle ⊢
    rw [mul_add] at hle ⊢
    obtain ⟨m', g1, g2⟩ := h1.bright hg1 hn r1 (by linarith)
    obtain ⟨ms', g3, g4⟩ := ih hg2 (by linarith)
    exact ⟨m' :: ms', by simp only [groupsStep, g1, g3, bind, Except.bind, neg_add], .cons g2 g4⟩

end step

/-! ### one phase, one step -/

section column

/-- The charge in a row passes the traps. -/
noncomputable def mgrRow (f : ℝ → ℝ) (dw : ℝ) (st : (ℕ → ℝ) × List (Mgr ℝ)) (x : ℕ × ℝ) : Except Err ((ℕ → ℝ) × List (Mgr ℝ)) := do
  let (net, ms) ← groupsStep (st.1 x.1) dw f st.2
  .ok (if x.2 = 0 then st.1 else Function.update st.1 x.1 (max 0 (st.1 x.1 + net * x.2)), ms)

/-- One pass: the rows one after the other. -/
noncomputable def mgrPass (f : ℝ → ℝ) (dw : ℝ) (ms : List (Mgr ℝ)) (col : ℕ → ℝ) (l : List (ℕ × ℝ)) : Except Err (ℕ → ℝ) := do
  let st ← l.foldlM (mgrRow f dw) (col, ms)
  .ok st.1

variable {cfg : ClockCfg ℝ} {fill : ℕ → ℝ → ℝ} {dw : ℝ}

theorem atmSys_row (h : OnePhase cfg dw) (i : Image ℝ) (c k j w : ℕ) (hw : cfg.rowWindow[j]? = some w) (hr : w < i.nr)
    (hc : c < i.nc) (col : ℕ → ℝ) (a : ATM ℝ) (ms : List (Mgr ℝ)) (ha : a.data = [ms]) :
    rowBody (atmSys fill) cfg c k (withCol i c col, a) j = (do
      let st ← mgrRow (fill 0) dw (col, ms) (w, cfg.expr.e k j)
      .ok (withCol i c st.1, { a with data := [st.2] })) := by
  have e1 : (withCol i c col).nr = i.nr := rfl
  have e2 : (withCol i c col).nc = i.nc := rfl
  have e3 : (withCol i c col).px w c = col w := by simp [withCol]
  have hp : phaseBody (atmSys fill) cfg c j (cfg.expr.e k j) 0 (withCol i c col, a) 0 = (do
      let st ← mgrRow (fill 0) dw (col, ms) (w, cfg.expr.e k j)
      .ok (withCol i c st.1, { a with data := [st.2] })) := by
    unfold phaseBody
    rw [h.seq, hw, h.dwell]
    simp only [List.getElem?_cons_zero, Option.bind_some]
    unfold Image.read
    rw [if_pos ⟨by omega, by rw [e1]; omega, by rw [e2]; exact hc⟩]
    simp only [bind, Except.bind, atmSys, ATM.react, ha, List.getElem?_cons_zero, List.set_cons_zero, if_true, mul_one,
      add_zero, Int.toNat_natCast, e3, mgrRow]
    cases groupsStep (col w) dw (fill 0) ms with
    | error e => rfl
    | ok o =>
      simp only
      by_cases hm : cfg.expr.e k j = 0
      · simp only [if_pos hm]
      · simp only [if_neg hm]
        rw [writeAll_withCol i c w hr hc]
  unfold rowBody
  rw [h.steps]
  simp only [foldlM_cons, foldlM_nil, stepBody, h.phases]
  rw [hp]
  cases mgrRow (fill 0) dw (col, ms) (w, cfg.expr.e k j) with
  | error e => rfl
  | ok o =>
    simp only [bind, Except.bind]
    rw [h.noSave]
    rfl

theorem atmSys_rows (h : OnePhase cfg dw) (i : Image ℝ) (c k : ℕ) (hc : c < i.nc) (l : List ℕ)
    (hl : ∀ j ∈ l, j < cfg.rowWindow.length) (hrows : ∀ w ∈ cfg.rowWindow, w < i.nr) :
    ∀ (col : ℕ → ℝ) (a : ATM ℝ) (ms : List (Mgr ℝ)), a.data = [ms] →
    l.foldlM (rowBody (atmSys fill) cfg c k) (withCol i c col, a) = (do
      let st ← (l.map fun j => (cfg.rowWindow.getD j 0, cfg.expr.e k j)).foldlM (mgrRow (fill 0) dw) (col, ms)
      .ok (withCol i c st.1, { a with data := [st.2] })) := by
  induction l with
  | nil =>
    intro col a ms ha
    simp only [foldlM_nil, List.map_nil, bind, Except.bind]
    rw [← ha]
  | cons j l ih =>
    intro col a ms ha
    have hj := hl j List.mem_cons_self
    have e : cfg.rowWindow.getD j 0 = cfg.rowWindow[j] := List.getD_eq_getElem _ _ hj
    rw [foldlM_cons, atmSys_row h i c k j _ (List.getElem?_eq_getElem hj) (hrows _ (List.getElem_mem hj)) hc col a ms ha,
      List.map_cons, foldlM_cons, e]
    cases mgrRow (fill 0) dw (col, ms) (cfg.rowWindow[j], cfg.expr.e k j) with
    | error e => rfl
    | ok o =>
      simp only [bind_ok]
      rw [ih (fun j hj => hl j (List.mem_cons_of_mem _ hj)) o.1 _ o.2 rfl]

/-- Emptied managers of all phases. -/
theorem mgrRow_emptied {f : ℝ → ℝ} {dw : ℝ} {st st' : (ℕ → ℝ) × List (Mgr ℝ)} {x : ℕ × ℝ} (h : mgrRow f dw st x = .ok st') :
    emptied [st'.2] = emptied [st.2] := by
  unfold mgrRow at h
  obtain ⟨o, h1, h2⟩ := bind_eq_ok h
  injection h2 with h2
  subst h2
  have hr : ATM.react ⟨[st.2], none, 0, 0⟩ 0 (st.1 x.1) dw f = .ok (o.1, ⟨[o.2], none, 0, 0⟩) := by
    unfold ATM.react
    simp only [List.getElem?_cons_zero, h1, bind, Except.bind, List.set_cons_zero]
  exact (ATM.react_emptied hr).1

theorem mgrRows_emptied {f : ℝ → ℝ} {dw : ℝ} (l : List (ℕ × ℝ)) : ∀ {st st' : (ℕ → ℝ) × List (Mgr ℝ)},
    l.foldlM (mgrRow f dw) st = .ok st' → emptied [st'.2] = emptied [st.2] := by
  induction l with
  | nil => intro st st' h; injection h with h; rw [h]
  | cons x l ih =>
    intro st st' h
    rw [foldlM_cons] at h
    obtain ⟨o, h1, h2⟩ := bind_eq_ok h
    exact (ih h2).trans (mgrRow_emptied h1)

/-- The passes over a column. -/
theorem atmSys_passes (h : OnePhase cfg dw) (i : Image ℝ) (c : ℕ) (hc : c < i.nc)
    (hmon : cfg.monitor.nc ≤ cfg.rowWindow.length) (hrows : ∀ w ∈ cfg.rowWindow, w < i.nr) (ms : List (Mgr ℝ))
    (l : List ℕ) : ∀ (col col' : ℕ → ℝ) (a : ATM ℝ), a.eff = [ms] → emptied a.data = emptied [ms] →
    (l.map (todo cfg)).foldlM (mgrPass (fill 0) dw ms) col = .ok col' →
    ∃ a', l.foldlM (expressBody (atmSys fill) cfg c) (withCol i c col, a) = .ok (withCol i c col', a') ∧
      a'.eff = [ms] ∧ emptied a'.data = emptied [ms] := by
  induction l with
  | nil =>
    intro col col' a ha he hp
    injection hp with hp
    subst hp
    exact ⟨a, rfl, ha, he⟩
  | cons k l ih =>
    intro col col' a ha he hp
    rw [List.map_cons, foldlM_cons] at hp
    obtain ⟨col1, h1, h2⟩ := bind_eq_ok hp
    unfold mgrPass at h1
    obtain ⟨st, h3, h4⟩ := bind_eq_ok h1
    injection h4 with h4
    subst h4
    rw [foldlM_cons]
    have hb : expressBody (atmSys fill) cfg c (withCol i c col, a) k =
        .ok (withCol i c st.1, { a.restore with data := [st.2] }) := by
      unfold expressBody
      have := atmSys_rows (fill := fill) h i c k hc (monitoredRows cfg k) (fun j hj => (monitoredRows_lt hj).trans_le hmon)
        hrows col a.restore ms ha
      unfold todo at h3
      rw [h3] at this
      exact this
    rw [hb]
    simp only [bind_ok]
    have hem := mgrRows_emptied _ h3
    refine ih st.1 col' _ ?_ hem h2
    refine (ATM.eff_of (a := a.restore) (a' := { a.restore with data := [st.2] }) rfl ?_).trans ((ATM.eff_restore a).trans ha)
    change emptied [st.2] = emptied a.restore.data
    rw [show a.restore.data = [ms] from ha]
    exact hem

/-- All columns. -/
theorem atmSys_columns (h : OnePhase cfg dw) (hmon : cfg.monitor.nc ≤ cfg.rowWindow.length) (ms : List (Mgr ℝ))
    (hms : emptied [ms] = [ms]) (res : ℕ → ℕ → ℝ) (columns : List ℕ) :
    ∀ (i : Image ℝ) (a : ATM ℝ), columns.Nodup → (∀ c ∈ columns, c < i.nc) → (∀ w ∈ cfg.rowWindow, w < i.nr) →
    a.eff = [ms] → emptied a.data = [ms] →
    (∀ c ∈ columns, ((List.range cfg.expr.nr).map (todo cfg)).foldlM (mgrPass (fill 0) dw ms) (fun r => i.px r c) = .ok (res c)) →
    ∃ out a', clockLoops (atmSys fill) cfg columns (i, a) = .ok (out, a') ∧
      (∀ r c, out.px r c = if c ∈ columns then res c r else i.px r c) ∧ out.nr = i.nr ∧ out.nc = i.nc := by
  induction columns with
  | nil => intro i a _ _ _ _ _ _; exact ⟨i, a, rfl, fun r c => by simp, rfl, rfl⟩
  | cons c cs ih =>
    intro i a hnd hc hr ha he hres
    obtain ⟨n1, n2⟩ := List.nodup_cons.1 hnd
    obtain ⟨a1, p1, p2, p3⟩ := atmSys_passes (fill := fill) h i c (hc c List.mem_cons_self) hmon hr ms
      (List.range cfg.expr.nr) _ _ a ha (he.trans hms.symm) (hres c List.mem_cons_self)
    rw [withCol_self] at p1
    have hcol : columnBody (atmSys fill) cfg (i, a) c = .ok (withCol i c (res c), a1.emptyAll.save) := by
      unfold columnBody
      rw [p1, h.between]
      rfl
    have d1 : a1.emptyAll.data = [ms] := by
      change emptied a1.data = _
      rw [p3, hms]
    obtain ⟨out, a', g1, g2, g3, g4⟩ := ih (withCol i c (res c)) a1.emptyAll.save n2
      (fun c' h' => hc c' (List.mem_cons_of_mem _ h')) hr (by rw [ATM.eff_save]; exact d1)
      (by change emptied a1.emptyAll.data = _; rw [d1, hms]) (fun c' h' => by
        have hne : c' ≠ c := fun e => n1 (e ▸ h')
        have := hres c' (List.mem_cons_of_mem _ h')
        simpa [withCol, hne] using this)
    refine ⟨out, a', ?_, fun r c' => ?_, g3, g4⟩
    · unfold clockLoops at g1 ⊢
      rw [foldlM_cons, hcol]
      exact g1
    · rw [g2]
      by_cases hcc : c' = c
      · subst hcc
        simp [n1, withCol]
      · simp [withCol, hcc]

end column
end Arctic
