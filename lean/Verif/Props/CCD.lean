import Verif.Model.CCD
import Verif.Model.HST
import Verif.Model.FitsHeader
import Mathlib.Tactic.Linarith
import Mathlib.Tactic.Positivity
import Mathlib.Tactic.FieldSimp
import Mathlib.Tactic.Ring
import Mathlib.Tactic.NormNum

/-!
# CCD parameters, the HST preset, FITS headers (C40–C43)
-/

set_option linter.unusedSectionVars false
set_option linter.unusedVariables false

namespace Arctic

/-! ## C40 — well filling -/

/-- Phase `ph` of the CCD has notch depth `a`, full well depth `b` and filling power `p`. -/
structure CCD.HasPhase (c : CCD) (ph : ℕ) (a b p : ℝ) : Prop where
  notch : c.notchDepth[ph]? = some a
  full : c.fullWellDepth[ph]? = some b
  power : c.fillPower[ph]? = some p

theorem CCD.wellFilling_eq {c : CCD} {ph : ℕ} {a b p : ℝ} (h : c.HasPhase ph a b p) (hab : a < b) (hp : 0 < p)
    {n : ℝ} (hn : n ≠ 0) :
    c.wellFilling ph n false = .ok ((setMinMax ((n - a) / (b - a)) 0 1) ^ p) := by
  unfold CCD.wellFilling
  have h1 : b - a ≠ 0 := by linarith
  simp only [h.notch, h.full, h.power, hn, if_false, h1, hp.not_gt, and_false, Bool.false_eq_true]

/-- **C40**: between notch and full well the volume follows the power law, below it is 0, above it is 1. -/
theorem C40_values (c : CCD) (ph : ℕ) (a b p : ℝ) (h : c.HasPhase ph a b p) (ha : 0 ≤ a) (hab : a < b) (hp : 0 < p) :
    c.wellFilling ph 0 false = .ok 0 ∧
      (∀ n ≤ a, c.wellFilling ph n false = .ok 0) ∧ (∀ n ≥ b, c.wellFilling ph n false = .ok 1) ∧
      ∀ n, a ≤ n → n ≤ b → c.wellFilling ph n false = .ok (((n - a) / (b - a)) ^ p) := by
  have hr : 0 < b - a := by linarith
  have hz : c.wellFilling ph 0 false = .ok 0 := by simp [CCD.wellFilling]
  have hlow : ∀ n ≤ a, c.wellFilling ph n false = .ok 0 := by
    intro n hn
    by_cases h0 : n = 0
    · rw [h0]; exact hz
    · rw [CCD.wellFilling_eq h hab hp h0]
      have h1 : (n - a) / (b - a) ≤ 0 := div_nonpos_of_nonpos_of_nonneg (by linarith) hr.le
      have h2 : setMinMax ((n - a) / (b - a)) 0 1 = 0 := by
        unfold setMinMax
        split
        · rfl
        · rename_i h3
          have : (n - a) / (b - a) = 0 := le_antisymm h1 (not_lt.1 h3)
          rw [this]; simp
      rw [h2, Real.zero_rpow hp.ne']
  refine ⟨hz, hlow, ?_, ?_⟩
  · intro n hn
    rw [CCD.wellFilling_eq h hab hp (by linarith : n ≠ 0)]
    have h1 : 1 ≤ (n - a) / (b - a) := (one_le_div hr).2 (by linarith)
    have h2 : setMinMax ((n - a) / (b - a)) 0 1 = 1 := by
      unfold setMinMax
      rw [if_neg (by linarith)]
      split
      · rfl
      · linarith
    rw [h2, Real.one_rpow]
  · intro n h1 h2
    by_cases h0 : n = 0
    · have : a = 0 := le_antisymm (by linarith) ha
      subst h0 this
      simp [CCD.wellFilling, Real.zero_rpow hp.ne']
    · rw [CCD.wellFilling_eq h hab hp h0]
      have h3 : 0 ≤ (n - a) / (b - a) := div_nonneg (by linarith) hr.le
      have h4 : (n - a) / (b - a) ≤ 1 := (div_le_one hr).2 (by linarith)
      unfold setMinMax
      rw [if_neg (by linarith), if_neg (by linarith)]

/-- **C40**: the volume always lies in `[0, 1]`, and more electrons never fill less. -/
theorem C40_monotone (c : CCD) (ph : ℕ) (a b p : ℝ) (h : c.HasPhase ph a b p) (ha : 0 ≤ a) (hab : a < b) (hp : 0 < p) :
    ∃ v : ℝ → ℝ, (∀ n, c.wellFilling ph n false = .ok (v n)) ∧ (∀ n, 0 ≤ v n ∧ v n ≤ 1) ∧ Monotone v ∧
      StrictMonoOn v (Set.Icc a b) := by
  have hr : 0 < b - a := by linarith
  obtain ⟨hz, hlow, hhigh, hmid⟩ := C40_values c ph a b p h ha hab hp
  let v : ℝ → ℝ := fun n => (max 0 (min 1 ((n - a) / (b - a)))) ^ p
  have hin : ∀ n, a ≤ n → n ≤ b → v n = ((n - a) / (b - a)) ^ p := by
    intro n h1 h2
    have h3 : 0 ≤ (n - a) / (b - a) := div_nonneg (by linarith) hr.le
    have h4 : (n - a) / (b - a) ≤ 1 := (div_le_one hr).2 (by linarith)
    simp only [v, min_eq_right h4, max_eq_right h3]
  refine ⟨v, fun n => ?_, fun n => ⟨Real.rpow_nonneg (le_max_left _ _) _, Real.rpow_le_one (le_max_left _ _)
    (max_le (by norm_num) (min_le_left _ _)) hp.le⟩, ?_, ?_⟩
  · rcases le_total n a with h1 | h1
    · rw [hlow n h1]
      have h3 : (n - a) / (b - a) ≤ 0 := div_nonpos_of_nonpos_of_nonneg (by linarith) hr.le
      simp only [v, min_eq_right (h3.trans (by norm_num : (0 : ℝ) ≤ 1)), max_eq_left h3, Real.zero_rpow hp.ne']
    · rcases le_total n b with h2 | h2
      · rw [hmid n h1 h2, hin n h1 h2]
      · rw [hhigh n h2]
        have h3 : 1 ≤ (n - a) / (b - a) := (one_le_div hr).2 (by linarith)
        simp only [v, min_eq_left h3, max_eq_right (by norm_num : (0 : ℝ) ≤ 1), Real.one_rpow]
  · intro m n hmn
    refine Real.rpow_le_rpow (le_max_left _ _) ?_ hp.le
    refine max_le_max le_rfl (min_le_min le_rfl ?_)
    rw [div_le_div_iff_of_pos_right hr]; linarith
  · intro m hm n hn hmn
    rw [hin m hm.1 hm.2, hin n hn.1 hn.2]
    refine Real.rpow_lt_rpow (div_nonneg (by linarith [hm.1]) hr.le) ?_ hp
    rw [div_lt_div_iff_of_pos_right hr]; linarith

/-- **C40**, what the clocking code sees: the filling function of the CCD view. -/
theorem C40_view (c : CCD) (ph : ℕ) (a b p : ℝ) (h : c.HasPhase ph a b p) (ha : 0 ≤ a) (hab : a < b) (hp : 0 < p) :
    (∀ n, 0 ≤ c.view.fill ph n ∧ c.view.fill ph n ≤ 1) ∧ Monotone (c.view.fill ph) ∧
      ∀ n, n ≤ a → c.view.fill ph n = 0 := by
  obtain ⟨v, h1, h2, h3, -⟩ := C40_monotone c ph a b p h ha hab hp
  have e : c.view.fill ph = v := by
    funext n
    simp only [CCD.view, h1]
  rw [e]
  refine ⟨h2, h3, fun n hn => ?_⟩
  have h4 := (C40_values c ph a b p h ha hab hp).2.1 n hn
  rw [h1] at h4
  injection h4

/-- A negative notch depth breaks monotonicity at 0: a missing electron fills more volume than none. -/
theorem C40_negative_notch_false :
    let c : CCD := ⟨[1], [3], [1], [-1], [.num 3]⟩
    c.wellFilling 0 0 false = .ok 0 ∧ c.wellFilling 0 (-(1 / 2)) false = .ok (1 / 8) := by
  intro c
  refine ⟨by simp [CCD.wellFilling], ?_⟩
  rw [CCD.wellFilling_eq (a := -1) (b := 3) (p := 1) ⟨rfl, rfl, rfl⟩ (by norm_num) (by norm_num) (by norm_num)]
  norm_num [setMinMax]

example : (⟨[1], [100], [2], [20], [.num 100]⟩ : CCD).wellFilling 0 60 false = .ok (1 / 4) := by
  have h := (C40_values ⟨[1], [100], [2], [20], [.num 100]⟩ 0 20 100 2 ⟨rfl, rfl, rfl⟩ (by norm_num) (by norm_num)
    (by norm_num)).2.2.2 60 (by norm_num) (by norm_num)
  rw [h]
  norm_num

/-! ## C41 — broadcasting of CCD parameters -/

/-- The value of a parameter in a phase: the number itself, or the list's element. -/
def PyParam.at (p : PyParam) (ph : ℕ) : Option ℝ :=
  match p with
  | .scalar x => some x
  | .list l => l[ph]?

/-- A parameter suits `n` phases. -/
def PyParam.Fits (p : PyParam) (n : ℕ) : Prop :=
  match p with
  | .scalar _ => True
  | .list l => l.length = n

theorem PyParam.perPhase_ok {p : PyParam} {n : ℕ} {l : List ℝ} (h : p.perPhase n = .ok l) :
    p.Fits n ∧ l.length = n ∧ ∀ ph < n, l[ph]? = p.at ph := by
  cases p with
  | scalar x =>
    simp only [PyParam.perPhase, Except.ok.injEq] at h
    subst h
    exact ⟨trivial, by simp, fun ph h => by simp [PyParam.at, h]⟩
  | list l' =>
    simp only [PyParam.perPhase] at h
    split at h
    · cases h
    · rename_i hl
      cases h
      exact ⟨by simpa [PyParam.Fits] using hl, by simpa using hl, fun ph _ => rfl⟩

theorem PyParam.perPhase_fits {p : PyParam} {n : ℕ} (h : p.Fits n) : ∃ l, p.perPhase n = .ok l := by
  cases p with
  | scalar x => exact ⟨_, rfl⟩
  | list l => exact ⟨l, if_neg (by simpa [PyParam.Fits] using h)⟩

theorem PyParam.perPhase_not_fits {p : PyParam} {n : ℕ} (h : ¬ p.Fits n) : p.perPhase n = .error .valueError := by
  cases p with
  | scalar x => exact absurd trivial h
  | list l => exact if_pos (by simpa [PyParam.Fits] using h)

theorem bloomPerPhase_ok {p : Option PyParam} {fw : List ℝ} {n : ℕ} {l : List Bloom}
    (h : bloomPerPhase p fw n = .ok l) :
    (∀ x ∈ p, x.Fits n) ∧ l.length = n ∧
      ∀ ph < n, l[ph]? = match p with
        | none => some (.list fw)
        | some x => (x.at ph).map .num := by
  rcases p with - | x | x
  · simp only [bloomPerPhase, Except.ok.injEq] at h
    subst h
    exact ⟨by simp, by simp, fun ph h => by simp [h]⟩
  · simp only [bloomPerPhase, Except.ok.injEq] at h
    subst h
    exact ⟨by simp [PyParam.Fits], by simp, fun ph h => by simp [h, PyParam.at]⟩
  · simp only [bloomPerPhase] at h
    split at h
    · cases h
    · rename_i hl
      cases h
      exact ⟨by simpa [PyParam.Fits] using hl, by simpa using hl, fun ph _ => by simp [PyParam.at]⟩

theorem bloomPerPhase_not_fits {p : PyParam} {fw : List ℝ} {n : ℕ} (h : ¬ p.Fits n) :
    bloomPerPhase (some p) fw n = .error .valueError := by
  cases p with
  | scalar x => exact absurd trivial h
  | list l => exact if_pos (by simpa [PyParam.Fits] using h)

theorem bloomPerPhase_fits {p : Option PyParam} {fw : List ℝ} {n : ℕ} (h : ∀ x ∈ p, x.Fits n) :
    ∃ l, bloomPerPhase p fw n = .ok l := by
  rcases p with - | x | x
  · exact ⟨_, rfl⟩
  · exact ⟨_, rfl⟩
  · exact ⟨_, if_neg (by simpa [PyParam.Fits] using h)⟩

/-- **C41**: the constructor succeeds exactly when every list has as many elements as there are phases, and raises
`ValueError` otherwise. -/
theorem C41_accepts (fr fw nd fp : PyParam) (bl : Option PyParam) :
    let n := fr.toFractions.length
    ((∃ c, CCD.new fr fw nd fp bl = .ok c) ↔ fw.Fits n ∧ nd.Fits n ∧ fp.Fits n ∧ ∀ x ∈ bl, x.Fits n) ∧
      ((¬ ∃ c, CCD.new fr fw nd fp bl = .ok c) → CCD.new fr fw nd fp bl = .error .valueError) := by
  intro n
  unfold CCD.new
  by_cases h1 : fw.Fits n
  · obtain ⟨l1, e1⟩ := PyParam.perPhase_fits h1
    by_cases h2 : fp.Fits n
    · obtain ⟨l2, e2⟩ := PyParam.perPhase_fits h2
      by_cases h3 : nd.Fits n
      · obtain ⟨l3, e3⟩ := PyParam.perPhase_fits h3
        by_cases h4 : ∀ x ∈ bl, x.Fits n
        · obtain ⟨l4, e4⟩ := bloomPerPhase_fits (fw := l1) h4
          simp only [n] at e1 e2 e3 e4
          simp only [e1, e2, e3, e4, bind, Except.bind]
          exact ⟨⟨fun _ => ⟨h1, h3, h2, h4⟩, fun _ => ⟨_, rfl⟩⟩, fun h => absurd ⟨_, rfl⟩ h⟩
        · have : bloomPerPhase bl l1 n = .error .valueError := by
            rcases bl with - | x
            · exact absurd (by simp) h4
            · exact bloomPerPhase_not_fits (by simpa using h4)
          simp only [n] at e1 e2 e3 this
          simp only [e1, e2, e3, this, bind, Except.bind]
          refine ⟨⟨fun ⟨c, h⟩ => (by cases h), fun h => absurd h.2.2.2 h4⟩, fun _ => trivial⟩
      · have e3 := PyParam.perPhase_not_fits h3
        simp only [n] at e1 e2 e3
        simp only [e1, e2, e3, bind, Except.bind]
        exact ⟨⟨fun ⟨c, h⟩ => (by cases h), fun h => absurd h.2.1 h3⟩, fun _ => trivial⟩
    · have e2 := PyParam.perPhase_not_fits h2
      simp only [n] at e1 e2
      simp only [e1, e2, bind, Except.bind]
      exact ⟨⟨fun ⟨c, h⟩ => (by cases h), fun h => absurd h.2.2.1 h2⟩, fun _ => trivial⟩
  · have e1 := PyParam.perPhase_not_fits h1
    simp only [n] at e1
    simp only [e1, bind, Except.bind]
    exact ⟨⟨fun ⟨c, h⟩ => (by cases h), fun h => absurd h.1 h1⟩, fun _ => trivial⟩

theorem CCD.new_ok {fr fw nd fp : PyParam} {bl : Option PyParam} {c : CCD} (h : CCD.new fr fw nd fp bl = .ok c) :
    c.fractions = fr.toFractions ∧ fw.perPhase fr.toFractions.length = .ok c.fullWellDepth ∧
      fp.perPhase fr.toFractions.length = .ok c.fillPower ∧ nd.perPhase fr.toFractions.length = .ok c.notchDepth ∧
      bloomPerPhase bl c.fullWellDepth fr.toFractions.length = .ok c.bloomLevel := by
  unfold CCD.new at h
  cases e1 : fw.perPhase fr.toFractions.length with
  | error e => simp [e1, bind, Except.bind] at h
  | ok l1 =>
    cases e2 : fp.perPhase fr.toFractions.length with
    | error e => simp [e1, e2, bind, Except.bind] at h
    | ok l2 =>
      cases e3 : nd.perPhase fr.toFractions.length with
      | error e => simp [e1, e2, e3, bind, Except.bind] at h
      | ok l3 =>
        cases e4 : bloomPerPhase bl l1 fr.toFractions.length with
        | error e => simp [e1, e2, e3, e4, bind, Except.bind] at h
        | ok l4 =>
          simp only [e1, e2, e3, e4, bind, Except.bind, Except.ok.injEq] at h
          subst h
          exact ⟨rfl, rfl, rfl, rfl, e4⟩

/-- **C41**: `CCDPhase` finds in every phase the scalar given, or that phase's element of the list given; phases out of
range raise `IndexError`. -/
theorem C41_phase (fr fw nd fp : PyParam) (bl : PyParam) (c : CCD) (h : CCD.new fr fw nd fp (some bl) = .ok c)
    (ph : ℕ) :
    (∀ hph : ph < fr.toFractions.length, ∃ p, CCDPhase.new c ph = .ok p ∧ p.fraction = fr.toFractions[ph] ∧
      fw.at ph = some p.fullWellDepth ∧ fp.at ph = some p.fillPower ∧ nd.at ph = some p.notchDepth ∧
      (bl.at ph).map .num = some p.bloomLevel ∧ p.fill = c.wellFilling ph) ∧
    (fr.toFractions.length ≤ ph → CCDPhase.new c ph = .error .indexError) := by
  obtain ⟨h1, h2, h3, h4, h5⟩ := CCD.new_ok h
  refine ⟨fun hph => ?_, fun hph => ?_⟩
  · obtain ⟨-, l2, g2⟩ := PyParam.perPhase_ok h2
    obtain ⟨-, l3, g3⟩ := PyParam.perPhase_ok h3
    obtain ⟨-, l4, g4⟩ := PyParam.perPhase_ok h4
    obtain ⟨-, l5, g5⟩ := bloomPerPhase_ok h5
    have e1 : c.fractions[ph]? = some fr.toFractions[ph] := by rw [h1]; exact List.getElem?_eq_getElem hph
    have e2 := List.getElem?_eq_getElem (l := c.fullWellDepth) (i := ph) (by omega)
    have e3 := List.getElem?_eq_getElem (l := c.fillPower) (i := ph) (by omega)
    have e4 := List.getElem?_eq_getElem (l := c.notchDepth) (i := ph) (by omega)
    have e5 := List.getElem?_eq_getElem (l := c.bloomLevel) (i := ph) (by omega)
    refine ⟨_, by unfold CCDPhase.new; rw [e1, e2, e3, e4, e5], rfl, ?_, ?_, ?_, ?_, rfl⟩
    · rw [← g2 ph hph, e2]
    · rw [← g3 ph hph, e3]
    · rw [← g4 ph hph, e4]
    · rw [← e5, g5 ph hph]
  · unfold CCDPhase.new
    rw [List.getElem?_eq_none (by rw [h1]; exact hph)]

/-- **C41** (as it is): left as `None`, `well_bloom_level` is in every phase the whole list of full well depths. -/
theorem C41_default_bloom (fr fw nd fp : PyParam) (c : CCD) (h : CCD.new fr fw nd fp none = .ok c) (ph : ℕ)
    (hph : ph < fr.toFractions.length) :
    ∃ p, CCDPhase.new c ph = .ok p ∧ p.bloomLevel = .list c.fullWellDepth := by
  obtain ⟨h1, h2, h3, h4, h5⟩ := CCD.new_ok h
  obtain ⟨-, l2, g2⟩ := PyParam.perPhase_ok h2
  obtain ⟨-, l3, g3⟩ := PyParam.perPhase_ok h3
  obtain ⟨-, l4, g4⟩ := PyParam.perPhase_ok h4
  obtain ⟨-, l5, g5⟩ := bloomPerPhase_ok h5
  have e1 : c.fractions[ph]? = some fr.toFractions[ph] := by rw [h1]; exact List.getElem?_eq_getElem hph
  have e2 := List.getElem?_eq_getElem (l := c.fullWellDepth) (i := ph) (by omega)
  have e3 := List.getElem?_eq_getElem (l := c.fillPower) (i := ph) (by omega)
  have e4 := List.getElem?_eq_getElem (l := c.notchDepth) (i := ph) (by omega)
  have e5 := g5 ph hph
  simp only at e5
  exact ⟨_, by unfold CCDPhase.new; rw [e1, e2, e3, e4, e5], rfl⟩

/-- **C41** (as it is): asking for surface traps raises `AttributeError` for every non-empty cloud. -/
theorem C41_surface (c : CCD) (ph : ℕ) (n : ℝ) (hn : n ≠ 0) :
    c.cloudFractionalVolume n ph true = .error .attributeError := by
  simp [CCD.cloudFractionalVolume, CCD.wellFilling, hn]

/-- Two phases, one parameter given as a list. -/
example : ∃ c, CCD.new (.list [1 / 4, 3 / 4]) (.scalar 100) (.list [10, 20]) (.scalar 1) none = .ok c ∧
    c.fullWellDepth = [100, 100] ∧ c.notchDepth = [10, 20] :=
  ⟨⟨[1 / 4, 3 / 4], [100, 100], [1, 1], [10, 20], [.list [100, 100], .list [100, 100]]⟩, rfl, rfl, rfl⟩

/-! ## C42 — the HST ACS preset -/

/-- **C42**: dates before launch are refused, all others accepted. -/
theorem C42_dates (date : ℝ) :
    (modelForHstAcs date = .error .assertionError ↔ date < 2452334.5) ∧
      ((∃ r, modelForHstAcs date = .ok r) ↔ 2452334.5 ≤ date) := by
  unfold modelForHstAcs
  by_cases h : date ≥ 2452334.5
  · have h' : ¬ date < 2452334.5 := not_lt.2 h
    rw [if_neg (not_not.2 h)]
    refine ⟨⟨fun hh => ?_, fun hh => absurd hh h'⟩, ⟨fun _ => h, fun _ => ⟨_, rfl⟩⟩⟩
    cases hh
  · rw [if_pos h]
    exact ⟨⟨fun _ => not_le.1 h, fun _ => rfl⟩, ⟨fun ⟨r, hr⟩ => (by cases hr), fun hh => absurd hh h⟩⟩

theorem hstTotalDensity_pos {date : ℝ} (h : 2452334.5 ≤ date) : 0 < hstTotalDensity date := by
  unfold hstTotalDensity
  split
  · nlinarith
  · rename_i h1
    have : (2454968 : ℝ) ≤ date := not_lt.1 h1
    norm_num at *
    nlinarith

theorem hstTotalDensity_strictMono {d₁ d₂ : ℝ} (h : d₁ < d₂) :
    hstTotalDensity d₁ < hstTotalDensity d₂ := by
  unfold hstTotalDensity
  split <;> split
  · nlinarith
  · rename_i h1 h2
    have h2 := not_lt.1 h2
    norm_num at *
    nlinarith
  · rename_i h1 h2
    exact absurd (h.trans h2) h1
  · norm_num
    nlinarith

theorem hstTemperature_cases (date : ℝ) :
    hstTemperature date = 273.15 - 77 ∨ hstTemperature date = 273.15 - 81 := by
  unfold hstTemperature
  split
  · exact Or.inl rfl
  · exact Or.inr rfl

theorem hstReleaseTime_lt {date τ₁ τ₂ e₁ e₂ : ℝ} (h0 : 0 < τ₁) (h1 : τ₁ < τ₂) (h2 : e₁ ≤ e₂) :
    0 < hstReleaseTime date τ₁ e₁ ∧ hstReleaseTime date τ₁ e₁ < hstReleaseTime date τ₂ e₂ := by
  unfold hstReleaseTime
  have hT : 0 < hstTemperature date ∧ 0 ≤ hstTemperature date - (273.15 - 81) := by
    rcases hstTemperature_cases date with h | h <;> rw [h] <;> norm_num
  obtain ⟨hT, hd⟩ := hT
  generalize hstTemperature date = T at hT hd
  have hq : 0 < T / (273.15 - 81) := div_pos hT (by norm_num)
  have hk : (0 : ℝ) < 8.617343e-5 * (273.15 - 81) * T := mul_pos (by norm_num) hT
  have he : Real.exp (e₁ / (8.617343e-5 * (273.15 - 81) * T) * (T - (273.15 - 81))) ≤
      Real.exp (e₂ / (8.617343e-5 * (273.15 - 81) * T) * (T - (273.15 - 81))) :=
    Real.exp_le_exp.2 (mul_le_mul_of_nonneg_right ((div_le_div_iff_of_pos_right hk).2 h2) hd)
  have hp := Real.exp_pos (e₁ / (8.617343e-5 * (273.15 - 81) * T) * (T - (273.15 - 81)))
  refine ⟨by positivity, ?_⟩
  calc _ < τ₂ * (T / (273.15 - 81)) * Real.exp (e₁ / (8.617343e-5 * (273.15 - 81) * T) * (T - (273.15 - 81))) := by
        refine mul_lt_mul_of_pos_right (mul_lt_mul_of_pos_right h1 hq) hp
    _ ≤ _ := mul_le_mul_of_nonneg_left he (by have := h0.trans h1; positivity)

/-- **C42**: three instant-capture species, each with a positive density and a positive release time, the densities
in the proportions 1.27 : 3.38 : 2.85, the release times in increasing order; and a valid one-phase CCD and readout. -/
theorem C42_species (date : ℝ) (traps : List Trap) (ccd : CCD) (roe : Roe ℝ)
    (h : modelForHstAcs date = .ok (traps, ccd, roe)) :
    ∃ d₁ d₂ d₃ τ₁ τ₂ τ₃ : ℝ,
      traps = [.instant d₁ τ₁ false, .instant d₂ τ₂ false, .instant d₃ τ₃ false] ∧
      0 < d₁ ∧ 0 < d₂ ∧ 0 < d₃ ∧ d₁ / 1.27 = d₂ / 3.38 ∧ d₂ / 3.38 = d₃ / 2.85 ∧
      d₁ + d₂ + d₃ = hstTotalDensity date ∧ 0 < τ₁ ∧ τ₁ < τ₂ ∧ τ₂ < τ₃ ∧
      ccd.HasPhase 0 0 84700 0.478 ∧ ccd.fractions = [1] ∧ roe = .standard [1] true true true false := by
  have hd : 2452334.5 ≤ date := (C42_dates date).2.1 ⟨_, h⟩
  have hpos := hstTotalDensity_pos hd
  unfold modelForHstAcs at h
  rw [if_neg (not_not.2 hd)] at h
  simp only [CCD.new, PyParam.toFractions, PyParam.perPhase, bloomPerPhase, bind, Except.bind, Except.ok.injEq,
    Prod.mk.injEq] at h
  obtain ⟨rfl, rfl, rfl⟩ := h
  have r1 := hstReleaseTime_lt (date := date) (τ₁ := 0.74) (τ₂ := 7.7) (e₁ := 0.31) (e₂ := 0.34) (by norm_num)
    (by norm_num) (by norm_num)
  have r2 := hstReleaseTime_lt (date := date) (τ₁ := 7.7) (τ₂ := 37) (e₁ := 0.34) (e₂ := 0.44) (by norm_num)
    (by norm_num) (by norm_num)
  refine ⟨_, _, _, _, _, _, rfl, ?_, ?_, ?_, ?_, ?_, ?_, r1.1, r1.2, r2.2, ⟨rfl, rfl, rfl⟩, rfl, rfl⟩
  · exact mul_pos (by norm_num) hpos
  · exact mul_pos (by norm_num) hpos
  · exact mul_pos (by norm_num) hpos
  · unfold hstDensity; norm_num; ring
  · unfold hstDensity; norm_num; ring
  · unfold hstDensity; norm_num; ring

/-- **C42**: the total density grows strictly with the date, also across the repair date where the law changes. -/
theorem C42_growth (d₁ d₂ : ℝ) (h : d₁ < d₂) : hstTotalDensity d₁ < hstTotalDensity d₂ :=
  hstTotalDensity_strictMono h

/-- **C42** (as it is): the release times were *longer* before the detector was cooled from -77 °C to -81 °C:
the energies enter with the sign opposite to thermal activation. -/
theorem C42_cooling (d₁ d₂ τ e : ℝ) (h₁ : d₁ < 2453920) (h₂ : 2453920 ≤ d₂) (hτ : 0 < τ) (he : 0 < e) :
    hstReleaseTime d₂ τ e = τ ∧ τ < hstReleaseTime d₁ τ e := by
  unfold hstReleaseTime hstTemperature
  rw [if_pos h₁, if_neg (not_lt.2 h₂)]
  refine ⟨by norm_num, ?_⟩
  have h1 : (1 : ℝ) < Real.exp (e / (8.617343e-5 * (273.15 - 81) * (273.15 - 77)) *
      ((273.15 - 77) - (273.15 - 81))) := by
    rw [Real.one_lt_exp_iff]
    refine mul_pos (div_pos he (by norm_num)) (by norm_num)
  have h2 : (1 : ℝ) < (273.15 - 77) / (273.15 - 81) := by norm_num
  have h3 : τ < τ * ((273.15 - 77) / (273.15 - 81)) := by nlinarith
  have h4 := h3.trans' hτ
  nlinarith

/-- Between launch and cooling, between cooling and repair, and after the repair. -/
example : hstTotalDensity 2452335.5 = 0.01819988 ∧ hstTemperature 2452335.5 = 196.15 ∧
    hstTemperature 2453921 = 192.15 ∧ 1 < hstTotalDensity 2454968 := by
  refine ⟨?_, ?_, ?_, ?_⟩
  · unfold hstTotalDensity; norm_num
  · unfold hstTemperature; norm_num
  · unfold hstTemperature; norm_num
  · unfold hstTotalDensity; norm_num

/-! ## C43 — FITS headers -/

/-- **C43** (as it is): without a serial clocker only the parallel iterations are recorded, whatever else is given;
no exception tells. -/
theorem C43_no_serial_clocker (h : Header) (a : HdrArgs) (hs : a.serialClocker = none) :
    updateFitsHeader h a = (h ++ (a.parallelClocker.map fun n => ("cte_pite", HVal.iterations n)).toList, none) := by
  unfold updateFitsHeader
  rw [hs]
  cases a.parallelClocker <;> simp

/-- **C43** (as it is): with a serial clocker the call succeeds exactly when there is nothing but clockers to record. -/
theorem C43_serial_clocker (h : Header) (a : HdrArgs) (n : ℕ) (hs : a.serialClocker = some n) :
    ((updateFitsHeader h a).2 = none ↔
      (a.parallelTraps = none ∨ a.parallelTraps = some 0) ∧ (a.serialTraps = none ∨ a.serialTraps = some 0) ∧
        a.parallelCcd = false ∧ a.serialCcd = false) ∧
    ((updateFitsHeader h a).2 = none →
      (updateFitsHeader h a).1 = h ++ (a.parallelClocker.map fun n => ("cte_pite", HVal.iterations n)).toList ++
        [("cte_site", .iterations n)]) := by
  obtain ⟨pc, sc, pt, st, pccd, sccd⟩ := a
  simp only at hs
  subst hs
  rcases pt with - | _ | pt <;> rcases st with - | _ | st <;> cases pccd <;> cases sccd <;> cases pc <;>
    simp [updateFitsHeader, addTrap]

/-- **C43**: earlier header entries stay, and iterations of the clockers given are always recorded. -/
theorem C43_records (h : Header) (a : HdrArgs) :
    h <+: (updateFitsHeader h a).1 ∧
      (∀ n, a.parallelClocker = some n → ("cte_pite", HVal.iterations n) ∈ (updateFitsHeader h a).1) ∧
      ∀ n, a.serialClocker = some n → ("cte_site", HVal.iterations n) ∈ (updateFitsHeader h a).1 := by
  obtain ⟨pc, sc, pt, st, pccd, sccd⟩ := a
  rcases pt with - | _ | pt <;> rcases st with - | _ | st <;> cases pccd <;> cases sccd <;> cases pc <;> cases sc <;>
    simp [updateFitsHeader, addTrap, List.append_assoc]

/-- **C43** (as it is): trap parameters and filling powers never reach the header. -/
theorem C43_never_recorded (a : HdrArgs) (e : String × HVal) (he : e ∈ (updateFitsHeader [] a).1) :
    e.1 = "cte_pite" ∨ e.1 = "cte_site" ∨ e.1 = "cte_swln" ∨ e.1 = "cte_pwln" := by
  obtain ⟨pc, sc, pt, st, pccd, sccd⟩ := a
  rcases pt with - | _ | pt <;> rcases st with - | _ | st <;> cases pccd <;> cases sccd <;> cases pc <;> cases sc <;>
    simp [updateFitsHeader, addTrap] at he <;> grind

/-- **C43** as titled is false: the parallel CCD is given and not recorded; a trap list raises. -/
theorem C43_false :
    updateFitsHeader [] ⟨some 5, none, some 1, none, true, false⟩ = ([("cte_pite", .iterations 5)], none) ∧
      updateFitsHeader [] ⟨some 5, some 4, some 1, none, true, false⟩ =
        ([("cte_pite", .iterations 5), ("cte_site", .iterations 4)], some .typeError) := ⟨rfl, rfl⟩

end Arctic
