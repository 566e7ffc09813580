import Verif.Props.Traps
import Verif.Lemmas.NoCharge
import Mathlib.Analysis.Real.Pi.Bounds

/-!
# Lists of traps: Poisson sampling, ellipticity, distribution over phases (C44, C46, C47)
-/

set_option linter.unusedSectionVars false
set_option linter.unusedVariables false

namespace Arctic

/-! ## C44 — Poisson sampling -/

theorem flatMap_range_getElem? {α : Type} (f : ℕ → List α) (k : ℕ) (hf : ∀ c, (f c).length = k) (n c i : ℕ)
    (hc : c < n) (hi : i < k) : ((List.range n).flatMap f)[c * k + i]? = (f c)[i]? := by
  induction n with
  | zero => omega
  | succ n ih =>
    have hlen : ((List.range n).flatMap f).length = n * k := by
      rw [List.length_flatMap]
      simp [hf]
    rw [List.range_succ, List.flatMap_append, List.flatMap_singleton]
    by_cases h : c < n
    · rw [List.getElem?_append_left, ih h]
      rw [hlen]
      calc c * k + i < c * k + k := by omega
        _ = (c + 1) * k := by ring
        _ ≤ n * k := Nat.mul_le_mul_right _ h
    · have : c = n := by omega
      subst this
      rw [List.getElem?_append_right (by rw [hlen]; omega), hlen]
      congr 1
      omega

/-- **C44**: for non-negative densities the call returns one trap per species and column, columns one after the
other, species in their order; each with the species' release timescale and a density that is a whole number of
traps per column. -/
theorem C44_sampled (traps : List Trap) (nRows nColumns : ℕ) (draw : ℕ → ℕ → ℕ)
    (h : ∀ t ∈ traps, 0 ≤ t.density) :
    ∃ out, Trap.poissonTrap traps nRows nColumns draw = .ok out ∧ out.length = nColumns * traps.length ∧
      ∀ c < nColumns, ∀ i (hi : i < traps.length), ∃ t, out[c * traps.length + i]? = some t ∧
        t.releaseTimescale = traps[i].releaseTimescale ∧ t.density * nRows = (if nRows = 0 then 0 else (draw c i : ℝ)) := by
  refine ⟨_, if_neg ?_, ?_, ?_⟩
  · rintro ⟨-, m, hm, hlt⟩
    obtain ⟨t, ht, rfl⟩ := List.mem_map.1 hm
    exact absurd hlt (not_lt.2 (mul_nonneg (h t ht) (Nat.cast_nonneg _)))
  · rw [List.length_flatMap]
    simp
  · intro c hc i hi
    rw [flatMap_range_getElem? _ traps.length (by simp) _ _ _ hc hi]
    refine ⟨.trap ((draw c i : ℝ) / (nRows : ℝ)) traps[i].releaseTimescale 0 false, ?_, rfl, ?_⟩
    · rw [List.getElem?_mapIdx, List.getElem?_eq_getElem hi]; rfl
    · by_cases hn : nRows = 0
      · simp [hn]
      · rw [if_neg hn]
        have : (nRows : ℝ) ≠ 0 := by exact_mod_cast hn
        simp only [Trap.density]
        field_simp

/-- **C44**: the generator is asked for means that give the species' densities back. -/
theorem C44_mean (traps : List Trap) (nRows : ℕ) (h : 0 < nRows) (i : ℕ) (hi : i < traps.length) :
    ∃ m, (Trap.poissonMeans traps nRows)[i]? = some m ∧ m / nRows = traps[i].density := by
  refine ⟨_, by simp only [Trap.poissonMeans, List.getElem?_map, List.getElem?_eq_getElem hi]; rfl, ?_⟩
  have : (nRows : ℝ) ≠ 0 := by positivity
  field_simp

/-- **C44** fails for the capture timescale: whatever the species, the sampled traps capture instantly and are
plain `Trap`s (so a slow species is handled as instantaneous by the slow manager). -/
theorem C44_capture_dropped (traps : List Trap) (nRows nColumns : ℕ) (draw : ℕ → ℕ → ℕ) (out : List Trap)
    (h : Trap.poissonTrap traps nRows nColumns draw = .ok out) :
    ∀ t ∈ out, t.captureTimescale = 0 ∧ ∃ d r, t = .trap d r 0 false := by
  unfold Trap.poissonTrap at h
  split at h
  · cases h
  · cases h
    intro t ht
    obtain ⟨c, -, ht⟩ := List.mem_flatMap.1 ht
    obtain ⟨i, hi, rfl⟩ := List.mem_mapIdx.1 ht
    exact ⟨rfl, _, _, rfl⟩

/-- **C44** (limit): the sampled traps can be constructed unless a species has a zero release timescale, which its own
constructor refuses, too. -/
theorem C44_constructible (traps : List Trap) (nRows nColumns : ℕ) (draw : ℕ → ℕ → ℕ) (out : List Trap) (hc : 0 < nColumns)
    (h : Trap.poissonTrap traps nRows nColumns draw = .ok out) :
    ((∀ t ∈ out, t.valid = .ok ()) ↔ ∀ t ∈ traps, t.releaseTimescale ≠ 0) ∧
      ∀ t ∈ traps, t.releaseTimescale = 0 → t.valid = .error .zeroDivisionError := by
  have hv : ∀ t : Trap, t.valid = .ok () ↔ t.releaseTimescale ≠ 0 := by
    intro t
    unfold Trap.valid
    split <;> simp_all
  refine ⟨?_, fun t _ ht => if_pos ht⟩
  unfold Trap.poissonTrap at h
  split at h
  · cases h
  · cases h
    constructor
    · intro h t ht
      obtain ⟨i, hi, rfl⟩ := List.mem_iff_getElem.1 ht
      exact (hv _).1 (h (.trap ((draw 0 i : ℝ) / (nRows : ℝ)) traps[i].releaseTimescale 0 false)
        (List.mem_flatMap.2 ⟨0, List.mem_range.2 hc, List.mem_mapIdx.2 ⟨i, hi, rfl⟩⟩))
    · intro h t ht
      obtain ⟨c, -, ht⟩ := List.mem_flatMap.1 ht
      obtain ⟨i, hi, rfl⟩ := List.mem_mapIdx.1 ht
      exact (hv _).2 (show traps[i].releaseTimescale ≠ 0 from h _ (List.getElem_mem hi))

/-- **C44** witness: a slow species loses its capture timescale. -/
theorem C44_capture_false :
    ∃ out, Trap.poissonTrap [.trap 10 5 2 false] 4 1 (fun _ _ => 6) = .ok out ∧
      out = [.trap (6 / 4) 5 0 false] := by
  refine ⟨_, if_neg ?_, ?_⟩
  · rintro ⟨-, m, hm, hlt⟩
    simp only [Trap.poissonMeans, List.map_cons, List.map_nil, List.mem_singleton, Trap.density] at hm
    subst hm
    norm_num at hlt
  · simp [Trap.releaseTimescale]

/-! ## C46 — effect on ellipticities -/

/-- **C46**: proportional to the density; the manager's value is the sum over its species, in any order. -/
theorem C46_additive (t : Trap) (k : ℝ) (l l' : List Trap) :
    (t.withDensity (k * t.density)).deltaEllipticity = k * t.deltaEllipticity ∧
      Trap.managerDeltaEllipticity [] = 0 ∧ Trap.managerDeltaEllipticity [t] = t.deltaEllipticity ∧
      Trap.managerDeltaEllipticity (l ++ l') = Trap.managerDeltaEllipticity l + Trap.managerDeltaEllipticity l' ∧
      (l.Perm l' → Trap.managerDeltaEllipticity l = Trap.managerDeltaEllipticity l') := by
  refine ⟨?_, rfl, by simp [Trap.managerDeltaEllipticity], by simp [Trap.managerDeltaEllipticity], fun h =>
    (h.map _).sum_eq⟩
  cases t <;>
    simp only [Trap.withDensity, Trap.deltaEllipticity, Trap.density, Trap.releaseTimescale, mul_assoc]

/-- **C46**: with fractions that add up to 1, the managers of all phases together have the value of the species list. -/
theorem C46_phases (l : List Trap) (fractions : List ℝ) (h : fractions.sum = 1) :
    (fractions.map fun fr => Trap.managerDeltaEllipticity (l.map fun t => t.withDensity (t.density * fr))).sum =
      Trap.managerDeltaEllipticity l := by
  have key : ∀ fr : ℝ, Trap.managerDeltaEllipticity (l.map fun t => t.withDensity (t.density * fr)) =
      fr * Trap.managerDeltaEllipticity l := by
    intro fr
    unfold Trap.managerDeltaEllipticity
    rw [List.map_map, ← List.sum_map_mul_left]
    congr 1
    refine List.map_congr_left fun t _ => ?_
    have := (C46_additive t fr [] []).1
    rw [mul_comm] at this
    exact this
  simp only [key]
  rw [List.sum_map_mul_right]
  simp [h]

/-- **C46**: traps only ever add ellipticity: the factor is positive for every release timescale. -/
theorem C46_positive (t : Trap) (h : 0 < t.density) : 0 < t.deltaEllipticity := by
  unfold Trap.deltaEllipticity
  refine mul_pos h ?_
  have h1 := Real.neg_pi_div_two_lt_arctan ((Real.log t.releaseTimescale - 1.628) / 0.2951)
  have h2 := Real.exp_pos (-(Real.log t.releaseTimescale - 0.4553) ^ 2 / (2 * 0.4132 ^ 2))
  have h3 := Real.pi_lt_d2
  norm_num at h1 h2 ⊢
  nlinarith

/-! ## C47 — traps are distributed over the phases -/

/-- The manager classes. -/
inductive MgrClass where
  | trapManager | instantCapture | trackTime
  deriving DecidableEq

def Mgr.cls (m : Mgr ℝ) : MgrClass :=
  match m.kind with
  | .slow _ => .trapManager
  | .instant _ => .instantCapture
  | .trackTime _ => .trackTime

/-- The class that suits a trap. -/
def Trap.cls : Trap → MgrClass
  | .trap .. => .trapManager
  | .instant .. => .instantCapture
  | .continuum .. => .trackTime

theorem mapM_ok {α β : Type} (f : α → Except Err β) (g : α → β) (l : List α) (h : ∀ x ∈ l, f x = .ok (g x)) :
    l.mapM f = .ok (l.map g) := by
  induction l with
  | nil => rfl
  | cons a l ih =>
    rw [List.mapM_cons, h a (by simp), ih fun x hx => h x (by simp [hx])]
    rfl

theorem pyGroup_traps (l : List Trap) (h : l ≠ []) : pyGroup (.inl (l.map .trap)) = .ok l := by
  cases l with
  | nil => exact absurd rfl h
  | cons a l =>
    have : pyGroup (.inl ((a :: l).map .trap)) = ((a :: l).map PyItem.trap).mapM fun x => match x with
        | .trap t => .ok t
        | .group _ => .error .attributeError := rfl
    rw [this, List.mapM_map]
    have := mapM_ok ((fun x => match x with
        | PyItem.trap t => .ok t
        | .group _ => .error .attributeError) ∘ PyItem.trap) id (a :: l) fun _ _ => rfl
    rwa [List.map_id] at this

/-- The group of a non-empty list. -/
noncomputable def groupOf (l : List Trap) : Group ℝ :=
  match groupOfTraps l with
  | .ok g => g
  | .error _ => ⟨0, Fin.elim0, .slow fun _ => ⟨Fin.elim0, Fin.elim0, Fin.elim0⟩⟩

theorem groupOfTraps_ok {l : List Trap} (h : l ≠ []) : groupOfTraps l = .ok (groupOf l) := by
  cases l with
  | nil => exact absurd rfl h
  | cons a l => rfl

/-- **C47**: a single trap, a list of traps, and a list with that list as its only element are treated alike. -/
theorem C47_input_forms (t : Trap) (l : List Trap) (hl : l ≠ []) (fractions : List ℝ) (N : ℕ) :
    allTrapManager (.one t) fractions N = allTrapManager (.list [.trap t]) fractions N ∧
      allTrapManager (.list (l.map .trap)) fractions N = allTrapManager (.list [.group l]) fractions N := by
  refine ⟨rfl, ?_⟩
  cases l with
  | nil => exact absurd rfl hl
  | cons a l => rfl

/-- **C47**: for a list of non-empty groups there is one manager per phase and group, of the class that suits the
group's first trap, with empty traps, whose densities are the species' densities times the phase's fraction. -/
theorem C47_densities (gs : List (List Trap)) (hgs : gs ≠ []) (hg : ∀ l ∈ gs, l ≠ []) (fractions : List ℝ) (N : ℕ) :
    ∃ a, allTrapManager (.list (gs.map .group)) fractions N = .ok a ∧ a.data.length = fractions.length ∧
      ∀ ph (hph : ph < fractions.length), ∃ ms, a.data[ph]? = some ms ∧ ms.length = gs.length ∧
        ∀ g (hgl : g < gs.length), ∃ m, ms[g]? = some m ∧
          m.nTrapsPerPixel = (gs[g].map fun t => t.density * fractions[ph]) ∧
          (gs[g].head?.map Trap.cls = some m.cls) ∧ m.nTrapped = 0 := by
  have hout : (PyTraps.list (gs.map .group)).normal = .ok (gs.map fun l => .inl (l.map .trap)) := by
    cases gs with
    | nil => exact absurd rfl hgs
    | cons g gs => simp [PyTraps.normal, Function.comp_def]
  have hm : (gs.map fun l => (Sum.inl (l.map PyItem.trap) : List PyItem ⊕ Trap)).mapM
      (fun g => do groupOfTraps (← pyGroup g)) = .ok (gs.map groupOf) := by
    rw [List.mapM_map]
    refine mapM_ok _ _ _ fun l hl => ?_
    simp only [Function.comp, pyGroup_traps l (hg l hl)]
    exact groupOfTraps_ok (hg l hl)
  by_cases hf : fractions = []
  · subst hf
    exact ⟨ATM.new [] [] N, by simp [allTrapManager, hout, bind, Except.bind], rfl, fun ph h => absurd h (by simp)⟩
  · refine ⟨ATM.new (gs.map groupOf) fractions N, ?_, by simp [ATM.new], ?_⟩
    · simp only [allTrapManager, hout, hf, if_false]
      change ((gs.map fun l => (Sum.inl (l.map PyItem.trap) : List PyItem ⊕ Trap)).mapM
        (fun g => do groupOfTraps (← pyGroup g)) >>= _) = _
      rw [hm]; rfl
    · intro ph hph
      refine ⟨_, by simp only [ATM.new, List.getElem?_map, List.getElem?_eq_getElem hph]; rfl, by simp, ?_⟩
      intro g hgl
      refine ⟨_, by simp only [List.getElem?_map, List.getElem?_eq_getElem hgl]; rfl, ?_, ?_, ?_⟩
      · have h1 := hg gs[g] (List.getElem_mem hgl)
        generalize gs[g] = l at h1
        cases l with
        | nil => exact absurd rfl h1
        | cons a l =>
          apply List.ext_getElem
          · simp [groupOf, groupOfTraps, Mgr.nTrapsPerPixel, Mgr.new]
          · intro i h2 h3
            simp only [groupOf, groupOfTraps, Mgr.nTrapsPerPixel, Mgr.new, List.getElem_ofFn, List.getElem_map]
            rfl
      · have h1 := hg gs[g] (List.getElem_mem hgl)
        generalize gs[g] = l at h1
        cases l with
        | nil => exact absurd rfl h1
        | cons a l => cases a <;> rfl
      · generalize groupOf gs[g] = G
        have hw : ∀ n, List.replicate n (zeroRow ℝ G.s) = Z n := fun n => rfl
        cases hk : G.kind <;> simp only [Mgr.new, Mgr.nTrapped, hk, hw, cyNTrapped_Z, toFillFractions_Z]

/-- **C47**: fractions that add up to 1 keep each species' total density. -/
theorem C47_total (gs : List (List Trap)) (hgs : gs ≠ []) (hg : ∀ l ∈ gs, l ≠ []) (fractions : List ℝ)
    (hsum : fractions.sum = 1) (N : ℕ) (a : ATM ℝ)
    (ha : allTrapManager (.list (gs.map .group)) fractions N = .ok a) (g : ℕ) (hgl : g < gs.length) (j : ℕ)
    (hj : j < gs[g].length) :
    (a.data.map fun ms => (ms[g]?.bind fun m => m.nTrapsPerPixel[j]?).getD 0).sum = gs[g][j].density := by
  obtain ⟨a', h1, h2, h3⟩ := C47_densities gs hgs hg fractions N
  rw [ha] at h1
  cases h1
  have : (a.data.map fun ms => (ms[g]?.bind fun m => m.nTrapsPerPixel[j]?).getD 0) =
      fractions.map fun fr => gs[g][j].density * fr := by
    apply List.ext_getElem?
    intro ph
    by_cases hph : ph < fractions.length
    · obtain ⟨ms, e1, -, e2⟩ := h3 ph hph
      obtain ⟨m, e3, e4, -⟩ := e2 g hgl
      rw [List.getElem?_map, List.getElem?_map, e1, List.getElem?_eq_getElem hph]
      simp [e3, e4, List.getElem?_eq_getElem hj]
    · rw [List.getElem?_eq_none (by simp; omega), List.getElem?_eq_none (by simp; omega)]
  rw [this, List.sum_map_mul_left]
  simp [hsum]

/-- Two groups, two phases: the hypotheses are met, and the second species of the second group has 1.5 + 4.5 traps. -/
example : ∃ a, allTrapManager (.list ([[.instant 10 1 false], [.trap 8 1 1 false, .trap 6 2 1 false]].map .group))
      [1 / 4, 3 / 4] 5 = .ok a ∧ a.data.length = 2 ∧
    (a.data.map fun ms => (ms[1]?.bind fun m => m.nTrapsPerPixel[1]?).getD 0).sum = 6 := by
  obtain ⟨a, h1, h2, h3⟩ := C47_densities [[.instant 10 1 false], [.trap 8 1 1 false, .trap 6 2 1 false]] (by simp)
    (by simp) [1 / 4, 3 / 4] 5
  exact ⟨a, h1, h2, C47_total _ (by simp) (by simp) _ (by norm_num) _ a h1 1 (by simp) 1 (by simp)⟩

/-- **C47**: other shapes are refused: an empty list, an empty group, a trap after a group, a list after a trap. -/
theorem C47_refused (fractions : List ℝ) (hf : fractions ≠ []) (N : ℕ) (t : Trap) (g : List Trap) (hg : g ≠ []) :
    allTrapManager (.list []) fractions N = .error .indexError ∧
      allTrapManager (.list [.group []]) fractions N = .error .indexError ∧
      allTrapManager (.list [.group g, .trap t]) fractions N = .error .typeError ∧
      allTrapManager (.list [.trap t, .group g]) fractions N = .error .attributeError := by
  refine ⟨rfl, ?_, ?_, ?_⟩
  · simp [allTrapManager, PyTraps.normal, hf, pyGroup, bind, Except.bind]
  · have hr : pyGroup (.inr t) = .error .typeError := rfl
    simp [allTrapManager, PyTraps.normal, hf, bind, Except.bind, pyGroup_traps g hg, groupOfTraps_ok hg, hr]
  · simp [allTrapManager, PyTraps.normal, hf, pyGroup, bind, Except.bind]

end Arctic
