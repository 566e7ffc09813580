import Verif.Lemmas.RefIntegral
import Verif.Lemmas.Relabel

/-!
# One transfer of an instant-capture manager agrees with the reference
-/

set_option linter.unusedSectionVars false
set_option linter.unusedVariables false

namespace Arctic
open MeasureTheory

variable {s : ℕ}

section form
variable {K : Type} [Field K] [LinearOrder K] [IsStrictOrderedRing K]

/-- At most `k` active levels, then unused rows. -/
def ActForm (M k : ℕ) (wm : WM K s) : Prop :=
  ∃ act z, wm = act ++ Z z ∧ Pos act ∧ volSum act ≤ 1 ∧ (∀ r ∈ act, Frac r.fill) ∧ act.length ≤ k ∧
    act.length + z = 1 + M

theorem ActForm.of {M k : ℕ} {wm : WM K s} (h : InstState (1 + M) k wm) (hr : Regular wm) : ActForm M k wm := by
  obtain ⟨hl, ⟨act, z, rfl, hp, hv, hF, hk⟩ | ⟨h1, z, rfl⟩⟩ := h
  · refine ⟨act, z, rfl, hp, hv, hF, hk, ?_⟩
    rw [List.length_append, Z_length] at hl; exact hl
  · rcases Nat.eq_zero_or_pos s with h0 | h0
    · subst h0
      refine ⟨[], z + 1, ?_, by simp [Pos], by simp [volSum], by simp, by simp, ?_⟩
      · rw [List.nil_append, Z_succ]
        congr 1
        unfold zeroRow; congr 1; funext j; exact j.elim0
      · simp only [List.length_cons, Z_length] at hl
        simp only [List.length_nil, zero_add]; exact hl
    · exact absurd hr (Regular.not_stale h0)

end form

/-- A manager and reference traps in the same state, the manager within `k` transfers of being empty. -/
def MgrRef (T : ℝ → Prop) (M k : ℕ) (m : Mgr ℝ) (t : Ref.Traps) : Prop :=
  ∃ (s : ℕ) (dens : Fin s → ℝ) (p : ℝ → Fin s → ℝ) (wm : WM ℝ s) (o : ℝ → Fin s → ℝ),
    m = ⟨s, dens, .instant p, wm⟩ ∧ t = ⟨s, dens, p, o⟩ ∧ (∀ j, 0 ≤ dens j) ∧
      (∀ x, T x → ∀ j, 0 ≤ p x j ∧ p x j < 1) ∧ ActForm M k wm ∧ ∀ d, 0 < d → ∀ j, o d j = occ wm d j

theorem MgrRef.mono {T : ℝ → Prop} {M k k' : ℕ} {m : Mgr ℝ} {t : Ref.Traps} (h : MgrRef T M k m t) (hk : k ≤ k') :
    MgrRef T M k' m t := by
  obtain ⟨s, dens, p, wm, o, h1, h2, h3, h4, ⟨act, z, a1, a2, a3, a4, a5, a6⟩, h6⟩ := h
  exact ⟨s, dens, p, wm, o, h1, h2, h3, h4, ⟨act, z, a1, a2, a3, a4, a5.trans hk, a6⟩, h6⟩

/-- One transfer. -/
theorem MgrRef.step {T : ℝ → Prop} {M k : ℕ} {m : Mgr ℝ} {t : Ref.Traps} (h : MgrRef T M k m t) (hk : k < M)
    {f : ℝ → ℝ} (hf : FillModel f) (hpos : ∀ n, 0 < n → 0 < f n) (n x : ℝ) (hx : T x) :
    ∃ m', m.step n x f = .ok ((t.transfer f x n).1, m') ∧ MgrRef T M (k + 1) m' (t.transfer f x n).2 := by
  obtain ⟨s, dens, p, wm, o, rfl, rfl, hd, hpr, ⟨act, z, rfl, hp, hv, hF, hlen, hz⟩, ho⟩ := h
  obtain ⟨z, rfl⟩ : ∃ q, z = q + 2 := ⟨z - 2, by omega⟩
  have hpx := hpr x hx
  obtain ⟨net, wm', g1, g2, g3, g4, g5, g6⟩ := instantStep_active dens (p x) f hf hd
    (fun j => ⟨(hpx j).1, (hpx j).2.le⟩) n act z hp hv hF
  have hreg : Regular wm' := by
    obtain ⟨act2, z2, h1, h2⟩ := g6 hpos
    exact ⟨act2, z2, h1, h2⟩
  have hform : ActForm M (k + 1) wm' := by
    refine ActForm.of ?_ hreg
    have e : act.length + z + 2 = 1 + M := by omega
    rw [← e]
    exact g2.mono (by omega)
  -- the released state
  set act1 := released (p x) act with hact1
  have hrl : act1 = act.map (mapRow fun j x' => x' * p x j) := rfl
  have hp1 : Pos act1 := by rw [hrl]; exact pos_of_vols (vols_mapRow _ act).symm hp
  have hF1 : ∀ r ∈ act1, Frac r.fill := by
    intro r hr
    rw [hrl, List.mem_map] at hr
    obtain ⟨r0, hr0, rfl⟩ := hr
    intro j
    have h1 := hF r0 hr0 j
    exact ⟨mul_nonneg h1.1 (hpx j).1, mul_le_one₀ h1.2 (hpx j).1 (hpx j).2.le⟩
  have hv1 : volSum act1 ≤ 1 := by rw [hrl, volSum_eq_of_vols (vols_mapRow _ act)]; exact hv
  have hrZ : released (p x) (act ++ Z (z + 2)) = act1 ++ Z (z + 2) := by
    change (act ++ Z (z + 2)).map (mapRow fun j x' => x' * p x j) = _
    rw [List.map_append, Z_map _ (by simp)]; rfl
  have ho' : ∀ d, 0 < d → ∀ j, o d j = occ act d j := fun d h j => by rw [ho d h j, occ_append_Z _ _ d h j]
  have ho1 : ∀ d, 0 < d → ∀ j, o d j * p x j = occ act1 d j := fun d h j => by
    rw [ho' d h j]
    exact (occ_map_all (fun j x' => x' * p x j) (by simp) act d j).symm
  have hnn : ∀ l : WM ℝ s, Pos l → ∀ r ∈ l, 0 ≤ r.vol := fun l h r hr => (h r hr).le
  have efill : (⟨s, dens, p, o⟩ : Ref.Traps).filled = electrons dens act := by
    rw [← electrons_integral dens act (hnn _ hp) hF hv]
    unfold Ref.Traps.filled
    exact Finset.sum_congr rfl fun j _ => by
      rw [integral_congr_pos zero_le_one fun d hd => ho' d hd j]
  have efill1 : ((⟨s, dens, p, o⟩ : Ref.Traps).release x).filled = electrons dens act1 := by
    rw [← electrons_integral dens act1 (hnn _ hp1) hF1 hv1]
    unfold Ref.Traps.filled Ref.Traps.release
    exact Finset.sum_congr rfl fun j _ => by
      simp only
      rw [integral_congr_pos zero_le_one fun d hd => ho1 d hd j]
  have evac : ∀ c, 0 ≤ c → ((⟨s, dens, p, o⟩ : Ref.Traps).release x).vacant c = vacant dens c act1 := by
    intro c hc
    rw [← vacant_integral dens act1 (hnn _ hp1) hF1 c hc]
    unfold Ref.Traps.vacant Ref.Traps.release
    exact Finset.sum_congr rfl fun j _ => by
      simp only
      rw [integral_congr_pos hc fun d hd => by rw [ho1 d hd j]]
  have eup : ∀ c, 0 ≤ c → ∀ j, ∫ d in (0 : ℝ)..c, ((⟨s, dens, p, o⟩ : Ref.Traps).release x).occ d j = upTo c act1 j := by
    intro c hc j
    rw [← occ_integral act1 (hnn _ hp1) hF1 j c hc]
    exact integral_congr_pos hc fun d hd => ho1 d hd j
  set a := n + (electrons dens act - electrons dens act1) with ha
  have hav : available dens (p x) n (act ++ Z (z + 2)) = a := by
    unfold available
    rw [hrZ, electrons_append_Z, electrons_append_Z]
  have hvacZ : vacant dens (f a) (released (p x) (act ++ Z (z + 2))) = vacant dens (f a) act1 := by
    rw [hrZ, vacant_append_Z dens _ (hf.nonneg _)]
  simp only [CaptureSpec, hav, hvacZ] at g5
  rw [hrZ, electrons_append_Z, electrons_append_Z] at g5
  simp only [ProfileSpec, hav, hvacZ] at g4
  rw [step_instant, g1]
  unfold Ref.Traps.transfer
  simp only [efill, efill1, ← ha]
  unfold Ref.Traps.capture
  rw [evac (f a) (hf.nonneg _)]
  by_cases hw : vacant dens (f a) act1 ≤ max 0 a
  · simp only [if_pos hw]
    rw [min_eq_right hw] at g5
    refine ⟨⟨s, dens, .instant p, wm'⟩, ?_, ?_⟩
    · have : net = electrons dens act - electrons dens act1 - vacant dens (f a) act1 := by linarith
      rw [this]
      rfl
    · refine ⟨s, dens, p, wm', _, rfl, rfl, hd, hpr, hform, fun d hd0 j => ?_⟩
      rw [g4 hw d hd0 j]
      by_cases hdf : d ≤ f a
      · simp only [if_pos hdf]
      · simp only [if_neg hdf, Ref.Traps.release]
        rw [ho d hd0 j]
  · simp only [if_neg hw]
    have hw' := not_le.1 hw
    rw [min_eq_left hw'.le] at g5
    obtain ⟨net2, wm2, q1, q2⟩ := instantStep_short dens (p x) f hf hd hpx n act z hp hF a ha hw'
    rw [g1] at q1
    injection q1 with q1
    injection q1 with q3 q4
    subst q3 q4
    have hapos : 0 < a := by
      have hc : 0 < f a := by
        rcases (hf.nonneg a).eq_or_lt with h | h
        · rw [← h, vacant_zero dens act1 hp1] at hw'
          exact absurd (le_max_left 0 a) (not_le.2 hw')
        · exact h
      by_contra h; exact absurd (hf.empty _ (not_lt.1 h)) hc.ne'
    rw [max_eq_right hapos.le] at g5 ⊢
    refine ⟨⟨s, dens, .instant p, wm'⟩, ?_, ?_⟩
    · have : net = electrons dens act - electrons dens act1 - a := by linarith
      rw [this]
      rfl
    · refine ⟨s, dens, p, wm', _, rfl, rfl, hd, hpr, hform, fun d hd0 j => ?_⟩
      rw [q2 d hd0 j]
      by_cases hdf : d ≤ f a
      · simp only [if_pos hdf]
        rw [eup (f a) (hf.nonneg _) j]
      · simp only [if_neg hdf, Ref.Traps.release]
        rw [ho' d hd0 j]

/-- A new manager is empty. -/
theorem mgrRef_new {T : ℝ → Prop} {s : ℕ} (dens : Fin s → ℝ) (p : ℝ → Fin s → ℝ) (M : ℕ) (hd : ∀ j, 0 ≤ dens j)
    (hp : ∀ x, T x → ∀ j, 0 ≤ p x j ∧ p x j < 1) :
    MgrRef T M 0 (Mgr.new dens (.instant p) M) ⟨s, dens, p, fun _ _ => 0⟩ := by
  refine ⟨s, dens, p, Z (1 + M), _, ?_, rfl, hd, hp, ⟨[], 1 + M, rfl, by simp [Pos], by simp [volSum], by simp, le_rfl,
    by simp⟩, fun d hd j => (occ_Z _ d hd j).symm⟩
  simp only [Mgr.new, Kind.perTransfer, mul_one]
  rfl

theorem MgrRef.emptied {T : ℝ → Prop} {M k : ℕ} {m : Mgr ℝ} {t : Ref.Traps} (h : MgrRef T M k m t) :
    MgrRef T M 0 m.empty t.empty := by
  obtain ⟨s, dens, p, wm, o, rfl, rfl, hd, hpr, ⟨act, z, rfl, hp, hv, hF, hlen, hz⟩, ho⟩ := h
  refine ⟨s, dens, p, Z (1 + M), _, ?_, rfl, hd, hpr, ⟨[], 1 + M, rfl, by simp [Pos], by simp [volSum], by simp, le_rfl,
    by simp⟩, fun d hd j => (occ_Z _ d hd j).symm⟩
  unfold Mgr.empty
  simp only
  congr 1
  rw [List.map_const', ← hz, List.length_append, Z_length]
  rfl

end Arctic
