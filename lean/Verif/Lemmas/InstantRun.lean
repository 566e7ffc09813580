import Verif.Lemmas.InstantStep
import Verif.Spec.History

/-!
# Histories of instant-capture managers
-/

set_option linter.unusedSectionVars false
set_option linter.unusedVariables false

namespace Arctic

variable {K : Type} [Field K] [LinearOrder K] [IsStrictOrderedRing K] {s : ℕ}

/-- Active levels of positive volume, then unused rows (no stale row). -/
def Regular (wm : WM K s) : Prop := ∃ act z, wm = act ++ Z z ∧ Pos act

theorem InstState.mono {L k k' : ℕ} {wm : WM K s} (h : InstState L k wm) (hk : k ≤ k') :
    InstState L k' wm := by
  obtain ⟨hl, h⟩ := h
  refine ⟨hl, ?_⟩
  rcases h with ⟨act, z, h1, h2, h3, h4, h5⟩ | ⟨h1, z, h2⟩
  · exact Or.inl ⟨act, z, h1, h2, h3, h4, h5.trans hk⟩
  · exact Or.inr ⟨h1.trans hk, z, h2⟩

theorem instState_zero (L : ℕ) : InstState L 0 (Z L : WM K s) :=
  ⟨Z_length L, Or.inl ⟨[], L, rfl, fun _ h => by simp at h, by simp [volSum], fun _ h => by simp at h, le_rfl⟩⟩

theorem Regular.not_stale {z : ℕ} (h0 : 0 < s) : ¬ Regular ((⟨0, fun _ => 1⟩ : Row K s) :: Z z) := by
  rintro ⟨act, z', h, hp⟩
  cases act with
  | nil =>
    cases z' with
    | zero => simp [Z] at h
    | succ z' =>
      rw [List.nil_append, Z_succ] at h
      injection h with h1 h2
      have := congrFun (congrArg Row.fill h1) ⟨0, h0⟩
      simp [zeroRow] at this
  | cons a l =>
    rw [List.cons_append] at h
    injection h with h1 h2
    have := hp a (by simp)
    rw [← h1] at this
    exact lt_irrefl _ this

/-- One transfer from any state within budget. -/
theorem instant_step (dens p : Fin s → K) (f : K → K) (hf : FillModel f) (hd : ∀ j, 0 ≤ dens j)
    (hpr : ∀ j, 0 ≤ p j ∧ p j ≤ 1) (n : K) (L k : ℕ) (wm : WM K s) (hst : InstState L k wm)
    (hk : k + 2 ≤ L) :
    ∃ net wm', icStep (instantOps dens p) f n wm = .ok (net, wm') ∧
      InstState L (k + 1) wm' ∧ net = electrons dens wm - electrons dens wm' ∧
      ProfileSpec dens p f n wm wm' ∧ (Regular wm → CaptureSpec dens p f n wm net) ∧
      ((∀ n, 0 < n → 0 < f n) → Regular wm → Regular wm') := by
  obtain ⟨hl, ⟨act, z, rfl, hp, hv, hF, hlen⟩ | ⟨h1, z, rfl⟩⟩ := hst
  · rw [List.length_append, Z_length] at hl
    obtain ⟨z, rfl⟩ : ∃ q, z = q + 2 := ⟨z - 2, by omega⟩
    obtain ⟨net, wm', h1, h2, h3, h4, h5, h6⟩ := instantStep_active dens p f hf hd hpr n act z hp hv hF
    refine ⟨net, wm', h1, ?_, h3, h4, fun _ => h5, fun h _ => h6 h⟩
    have : InstState L (act.length + 1) wm' := by
      have e : act.length + z + 2 = L := by omega
      rw [← e]; exact h2
    exact this.mono (by omega)
  · rw [List.length_cons, Z_length] at hl
    obtain ⟨z, rfl⟩ : ∃ q, z = q + 1 := ⟨z - 1, by omega⟩
    obtain ⟨net, wm', h1, h2, h3, h4⟩ := instantStep_stale dens p f hf n z
    have hrel : electrons dens (released p ((⟨0, fun _ => 1⟩ : Row K s) :: Z (z + 1))) = 0 := by
      unfold released
      rw [electrons_eq]
      apply wsum_zero_vol
      intro r hr
      rw [List.mem_map] at hr
      obtain ⟨r0, hr0, rfl⟩ := hr
      rw [List.mem_cons] at hr0
      rcases hr0 with rfl | hr0
      · rfl
      · rw [Z, List.mem_replicate] at hr0; rw [hr0.2]; rfl
    have hel : electrons dens ((⟨0, fun _ => 1⟩ : Row K s) :: Z (z + 1)) = 0 := by
      rw [electrons_eq, wsum_cons, wsum_Z]; simp
    have hav : available dens p n ((⟨0, fun _ => 1⟩ : Row K s) :: Z (z + 1)) = n := by
      unfold available; rw [hrel, hel]; ring
    refine ⟨net, wm', h1, ?_, h3, ?_, ?_, ?_⟩
    · have e : z + 2 = L := by omega
      rw [← e]; exact h2.mono (by omega)
    · simp only [ProfileSpec, hav]
      intro _ d hd0 j
      have : occ ((⟨0, fun _ => 1⟩ : Row K s) :: Z (z + 1)) d j = 0 := by
        rw [occ_cons, if_neg (by simpa using hd0), sub_zero, occ_Z _ d hd0 j]
      rw [h4 d hd0 j, this, zero_mul]
    · intro hreg
      rcases Nat.eq_zero_or_pos s with h0 | h0
      · subst h0
        simp only [CaptureSpec, hav, hrel, hel]
        have hel0 : ∀ w : WM K 0, electrons dens w = 0 := by
          intro w; unfold electrons; simp
        have hva : ∀ (w : WM K 0) c, vacant dens c w = 0 := by
          intro w
          induction w with
          | nil => intro c; simp [vacant]
          | cons r w ih => intro c; unfold vacant; split <;> simp [ih]
        rw [hva, h3, hel, hel0, min_eq_right (le_max_left _ _)]; ring
      · exact absurd hreg (Regular.not_stale h0)
    · intro hpos hreg
      rcases Nat.eq_zero_or_pos s with h0 | h0
      · subst h0
        obtain ⟨hl2, ⟨act, z', rfl, hp, -⟩ | ⟨-, z', rfl⟩⟩ := h2
        · exact ⟨act, z', rfl, hp⟩
        · refine ⟨[], z' + 1, ?_, by simp [Pos]⟩
          rw [List.nil_append, Z_succ]
          congr 1
          unfold zeroRow; congr 1; funext j; exact j.elim0
      · exact absurd hreg (Regular.not_stale h0)

theorem Mgr.run_append (fill : K → K) (m : Mgr K) (h h' : List (K × K)) :
    m.run fill (h ++ h') = (do
      let (n1, m1) ← m.run fill h
      let (n2, m2) ← m1.run fill h'
      .ok (n1 ++ n2, m2)) := by
  induction h generalizing m with
  | nil =>
    simp only [List.nil_append, Mgr.run, bind_ok]
    cases m.run fill h' <;> rfl
  | cons e h ih =>
    obtain ⟨n, t⟩ := e
    rw [List.cons_append]
    simp only [Mgr.run]
    cases hs : m.step n t fill with
    | error e => rfl
    | ok r =>
      obtain ⟨net, m1⟩ := r
      simp only [bind_ok, ih]
      cases hr : m1.run fill h with
      | error e => rfl
      | ok r =>
        obtain ⟨n1, m2⟩ := r
        simp only [bind_ok]
        cases hr2 : m2.run fill h' with
        | error e => rfl
        | ok r => obtain ⟨n2, m3⟩ := r; simp only [bind_ok, List.cons_append]

/-- Sums of net electrons telescope. -/
theorem instant_run (dens : Fin s → K) (p : K → Fin s → K) (f : K → K) (hf : FillModel f)
    (hd : ∀ j, 0 ≤ dens j) (L : ℕ) (h : List (K × K))
    (hpr : ∀ e ∈ h, ∀ j, 0 ≤ p e.2 j ∧ p e.2 j ≤ 1) :
    ∀ (k : ℕ) (wm : WM K s), InstState L k wm → k + h.length + 1 ≤ L →
    ∃ nets wm', Mgr.run f ⟨s, dens, .instant p, wm⟩ h = .ok (nets, ⟨s, dens, .instant p, wm'⟩) ∧
      nets.length = h.length ∧
      InstState L (k + h.length) wm' ∧ nets.sum = electrons dens wm - electrons dens wm' ∧
      ((∀ n, 0 < n → 0 < f n) → Regular wm → Regular wm') := by
  induction h with
  | nil =>
    intro k wm hst hk
    exact ⟨[], wm, rfl, rfl, hst, by simp, fun _ h => h⟩
  | cons e h ih =>
    obtain ⟨n, t⟩ := e
    intro k wm hst hk
    rw [List.length_cons] at hk
    obtain ⟨net, wm1, h1, h2, h3, -, -, h4⟩ := instant_step dens (p t) f hf hd (hpr (n, t) (by simp)) n L k wm
      hst (by omega)
    obtain ⟨nets, wm2, g1, gl, g2, g3, g4⟩ := ih (fun e he => hpr e (by simp [he])) (k + 1) wm1 h2 (by omega)
    refine ⟨net :: nets, wm2, ?_, by simp [gl], ?_, ?_, fun a b => g4 a (h4 a b)⟩
    · simp only [Mgr.run, Mgr.step, h1, bind_ok, g1]
    · rw [List.length_cons, show k + (h.length + 1) = k + 1 + h.length by omega]; exact g2
    · rw [List.sum_cons, g3, h3]; ring

end Arctic
