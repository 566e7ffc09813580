import Verif.Lemmas.SlowStep
import Verif.Lemmas.Conserve
import Verif.Lemmas.Relabel

/-!
# Histories of slow-capture managers
-/

set_option linter.unusedSectionVars false
set_option linter.unusedVariables false

namespace Arctic

variable {K : Type} [Field K] [LinearOrder K] [IsStrictOrderedRing K] {s : ℕ}

theorem slowState_zero (L : ℕ) : SlowState L 0 (Z L : WM K s) :=
  ⟨Z_length L, [], Z L, rfl, trivial, fun r hr => by rw [List.eq_of_mem_replicate hr]; rfl, by simp⟩

theorem slow_run (dens : Fin s → K) (p : K → Probs K s) (f : K → K) (hf : FillModel f)
    (L : ℕ) (h : List (K × K)) :
    ∀ (k : ℕ) (wm : WM K s), SlowState L k wm → k + 3 * h.length + 1 ≤ L →
    ∃ nets wm', Mgr.run f ⟨s, dens, .slow p, wm⟩ h = .ok (nets, ⟨s, dens, .slow p, wm'⟩) ∧
      nets.length = h.length ∧ SlowState L (k + 3 * h.length) wm' ∧
      nets.sum = electrons dens wm - electrons dens wm' := by
  induction h with
  | nil =>
    intro k wm hst hk
    exact ⟨[], wm, rfl, rfl, hst, by simp⟩
  | cons e h ih =>
    obtain ⟨n, t⟩ := e
    intro k wm hst hk
    rw [List.length_cons] at hk
    obtain ⟨net, wm1, h1, h2⟩ := slowStep_shape dens (p t) f hf n L k wm hst (by omega)
    have h3 := slowStep_conserve dens (p t) f n wm wm1 net (hst.hasSpare (by omega)) h1
    obtain ⟨nets, wm2, g1, gl, g2, g3⟩ := ih (k + 3) wm1 h2 (by omega)
    refine ⟨net :: nets, wm2, ?_, by simp [gl], ?_, ?_⟩
    · simp only [Mgr.run, step_slow, h1, Except.map, bind_ok, g1]
    · rw [List.length_cons, show k + 3 * (h.length + 1) = k + 3 + 3 * h.length by omega]; exact g2
    · rw [List.sum_cons, g3, h3, electrons_eq_cy, electrons_eq_cy]; ring

end Arctic
