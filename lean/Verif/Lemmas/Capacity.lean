import Verif.Lemmas.RefClock

/-!
# The size of the watermark arrays

Two arrays that give the same occupancy at every depth behave in the same way, so an instant-capture manager with more
unused rows returns the same electrons.
-/

set_option linter.unusedSectionVars false
set_option linter.unusedVariables false

namespace Arctic

variable {K : Type} [Field K] [LinearOrder K] [IsStrictOrderedRing K] {s : ℕ}

theorem occ_tail (r : Row K s) (l : WM K s) (d : K) (hd : 0 < d) (j : Fin s) :
    occ (r :: l) (d + r.vol) j = occ l d j := by
  rw [occ_cons, if_neg (by linarith), add_sub_cancel_right]

/-- The electrons up to any depth are determined by the occupancy at every depth. -/
theorem upTo_congr : ∀ (n : ℕ) (l l' : WM K s), l.length + l'.length ≤ n → Pos l → Pos l' → ∀ j,
    (∀ d, 0 < d → occ l d j = occ l' d j) → ∀ c, 0 ≤ c → upTo c l j = upTo c l' j := by
  have nil : ∀ (l : WM K s), Pos l → ∀ j, (∀ d, 0 < d → occ l d j = 0) → ∀ c, upTo c l j = 0 := by
    intro l
    induction l with
    | nil => intro _ j _ c; rfl
    | cons r l ih =>
      intro hp j h c
      have hr := hp r List.mem_cons_self
      have h0 : r.fill j = 0 := by
        have := h r.vol hr
        rwa [occ_cons, if_pos le_rfl] at this
      unfold upTo
      rw [h0, mul_zero, mul_zero, ih (fun x hx => hp x (List.mem_cons_of_mem _ hx)) j (fun d hd => by
        rw [← occ_tail r l d hd j]; exact h _ (by linarith))]
      simp
  intro n
  induction n with
  | zero =>
    intro l l' hn
    obtain rfl : l = [] := List.length_eq_zero_iff.1 (by omega)
    obtain rfl : l' = [] := List.length_eq_zero_iff.1 (by omega)
    intros; rfl
  | succ n ih =>
    have one : ∀ (r q : Row K s) (rs qs : WM K s), (r :: rs).length + (q :: qs).length ≤ n + 1 → Pos (r :: rs) →
        Pos (q :: qs) → ∀ j, (∀ d, 0 < d → occ (r :: rs) d j = occ (q :: qs) d j) → r.vol ≤ q.vol →
        ∀ c, 0 ≤ c → upTo c (r :: rs) j = upTo c (q :: qs) j := by
      intro r q rs qs hn hp hq j h hle c hc
      simp only [List.length_cons] at hn
      have hr := hp r List.mem_cons_self
      have hps : Pos rs := fun x hx => hp x (List.mem_cons_of_mem _ hx)
      have hqs : Pos qs := fun x hx => hq x (List.mem_cons_of_mem _ hx)
      have hf : r.fill j = q.fill j := by
        have := h r.vol hr
        rwa [occ_cons, if_pos le_rfl, occ_cons, if_pos hle] at this
      rcases hle.eq_or_lt with heq | hlt
      · unfold upTo
        rw [hf, heq]
        split
        · rfl
        · rename_i hcv
          congr 1
          refine ih rs qs (by omega) hps hqs j (fun d hd => ?_) (c - q.vol) (by linarith [not_le.1 hcv])
          rw [← occ_tail r rs d hd j, ← occ_tail q qs d hd j, heq]
          exact h _ (by linarith [hq q List.mem_cons_self])
      · have key : ∀ d, 0 < d → occ rs d j = occ ((⟨q.vol - r.vol, q.fill⟩ : Row K s) :: qs) d j := by
          intro d hd
          rw [← occ_tail r rs d hd j, h _ (by linarith), occ_cons, occ_cons]
          have e : d + r.vol ≤ q.vol ↔ d ≤ q.vol - r.vol := by constructor <;> intro <;> linarith
          simp only [e]
          congr 2
          ring
        have hq' : Pos ((⟨q.vol - r.vol, q.fill⟩ : Row K s) :: qs) := by
          intro x hx
          rcases List.mem_cons.1 hx with rfl | hx
          · exact sub_pos.2 hlt
          · exact hqs x hx
        by_cases hcr : c ≤ r.vol
        · rw [upTo, upTo, if_pos hcr, if_pos (hcr.trans hle), hf]
        · have h1 := ih rs _ (by simp only [List.length_cons]; omega) hps hq' j key (c - r.vol)
            (by linarith [not_le.1 hcr])
          rw [upTo, if_neg hcr, h1, upTo, upTo, hf]
          by_cases hcq : c ≤ q.vol
          · rw [if_pos hcq, if_pos (by simpa using hcq)]; ring
          · rw [if_neg hcq, if_neg (by simpa using hcq)]
            have : c - r.vol - (q.vol - r.vol) = c - q.vol := by ring
            simp only [this]
            ring
    intro l l' hn hp hp' j h c hc
    match l, l' with
    | [], l' => exact (nil l' hp' j (fun d hd => (h d hd).symm) c).symm
    | l, [] => exact nil l hp j (fun d hd => h d hd) c
    | r :: rs, q :: qs =>
      rcases le_total r.vol q.vol with hle | hle
      · exact one r q rs qs hn hp hp' j h hle c hc
      · exact (one q r qs rs (by omega) hp' hp j (fun d hd => (h d hd).symm) hle c hc).symm

/-- Levels with the same occupancy at every depth. -/
structure SameProfile (act act' : WM K s) : Prop where
  pos : Pos act
  pos' : Pos act'
  vol : volSum act ≤ 1
  vol' : volSum act' ≤ 1
  occ : ∀ d, 0 < d → ∀ j, occ act d j = occ act' d j

theorem SameProfile.upTo {act act' : WM K s} (h : SameProfile act act') (c : K) (hc : 0 ≤ c) (j : Fin s) :
    upTo c act j = upTo c act' j :=
  upTo_congr _ act act' le_rfl h.pos h.pos' j (fun d hd => h.occ d hd j) c hc

theorem SameProfile.electrons {act act' : WM K s} (h : SameProfile act act') (dens : Fin s → K) :
    electrons dens act = Arctic.electrons dens act' := by
  rw [upTo_electrons dens act (fun r hr => (h.pos r hr).le) 1 h.vol,
    upTo_electrons dens act' (fun r hr => (h.pos' r hr).le) 1 h.vol']
  exact Finset.sum_congr rfl fun j _ => by rw [h.upTo 1 zero_le_one j]

theorem SameProfile.vacant {act act' : WM K s} (h : SameProfile act act') (dens : Fin s → K) (c : K) (hc : 0 ≤ c) :
    vacant dens c act = Arctic.vacant dens c act' := by
  rw [upTo_vacant, upTo_vacant]
  exact Finset.sum_congr rfl fun j _ => by rw [h.upTo c hc j]

theorem SameProfile.released {act act' : WM K s} (h : SameProfile act act') (p : Fin s → K) :
    SameProfile (released p act) (Arctic.released p act') := by
  have hv : ∀ l : WM K s, vols l = vols (Arctic.released p l) := fun l => (vols_mapRow (fun j x => x * p j) l).symm
  have ho : ∀ (l : WM K s) d j, Arctic.occ (Arctic.released p l) d j = Arctic.occ l d j * p j := fun l d j =>
    occ_map_all (fun j x => x * p j) (by simp) l d j
  refine ⟨pos_of_vols (hv _) h.pos, pos_of_vols (hv _) h.pos', ?_, ?_, fun d hd j => ?_⟩
  · rw [← volSum_eq_of_vols (hv _)]; exact h.vol
  · rw [← volSum_eq_of_vols (hv _)]; exact h.vol'
  · rw [ho, ho, h.occ d hd j]

/-- The two managers differ in the number of unused rows, and in how the same occupancy is divided into levels. -/
def MgrCap (T : K → Prop) (M M' k : ℕ) (m m' : Mgr K) : Prop :=
  ∃ (s : ℕ) (dens : Fin s → K) (p : K → Fin s → K) (wm wm' : WM K s),
    m = ⟨s, dens, .instant p, wm⟩ ∧ m' = ⟨s, dens, .instant p, wm'⟩ ∧ (∀ j, 0 ≤ dens j) ∧
      (∀ x, T x → ∀ j, 0 ≤ p x j ∧ p x j < 1) ∧ ActForm M k wm ∧ ActForm M' k wm' ∧
      ∀ d, 0 < d → ∀ j, occ wm d j = occ wm' d j

theorem ActForm.mono {M k k' : ℕ} {wm : WM K s} (h : ActForm M k wm) (hk : k ≤ k') : ActForm M k' wm := by
  obtain ⟨act, z, a1, a2, a3, a4, a5, a6⟩ := h
  exact ⟨act, z, a1, a2, a3, a4, a5.trans hk, a6⟩

theorem MgrCap.mono {T : K → Prop} {M M' k k' : ℕ} {m m' : Mgr K} (h : MgrCap T M M' k m m') (hk : k ≤ k') :
    MgrCap T M M' k' m m' := by
  obtain ⟨s, dens, p, wm, wm', h1, h2, h3, h4, h5, h6, h7⟩ := h
  exact ⟨s, dens, p, wm, wm', h1, h2, h3, h4, h5.mono hk, h6.mono hk, h7⟩

/-- What one transfer gives, in terms of the occupancy before it. -/
theorem instant_profile {f : K → K} (hf : FillModel f) (hpos : ∀ n, 0 < n → 0 < f n) (dens p : Fin s → K)
    (hd : ∀ j, 0 ≤ dens j) (hpr : ∀ j, 0 ≤ p j ∧ p j < 1) (n : K) {M k : ℕ} (hk : k < M) (act : WM K s) (z : ℕ)
    (hp : Pos act) (hv : volSum act ≤ 1) (hF : ∀ r ∈ act, Frac r.fill) (hlen : act.length ≤ k)
    (hz : act.length + z = 1 + M) (a : K) (ha : a = n + (electrons dens act - electrons dens (released p act))) :
    ∃ wm', icStep (instantOps dens p) f n (act ++ Z z) =
        .ok (electrons dens act - electrons dens (released p act) -
          min (max 0 a) (vacant dens (f a) (released p act)), wm') ∧ ActForm M (k + 1) wm' ∧
      ∀ d, 0 < d → ∀ j, occ wm' d j =
        if vacant dens (f a) (released p act) ≤ max 0 a then if d ≤ f a then 1 else occ act d j * p j
        else if d ≤ f a then a / vacant dens (f a) (released p act) +
            (1 - a / vacant dens (f a) (released p act)) * (upTo (f a) (released p act) j / f a)
          else occ act d j * p j := by
  obtain ⟨z, rfl⟩ : ∃ q, z = q + 2 := ⟨z - 2, by omega⟩
  obtain ⟨net, wm', g1, g2, g3, g4, g5, g6⟩ := instantStep_active dens p f hf hd
    (fun j => ⟨(hpr j).1, (hpr j).2.le⟩) n act z hp hv hF
  have hreg : Regular wm' := by
    obtain ⟨act2, z2, h1, h2⟩ := g6 hpos
    exact ⟨act2, z2, h1, h2⟩
  have hform : ActForm M (k + 1) wm' := by
    refine ActForm.of ?_ hreg
    have e : act.length + z + 2 = 1 + M := by omega
    rw [← e]
    exact g2.mono (by omega)
  have hrZ : released p (act ++ Z (z + 2)) = released p act ++ Z (z + 2) := by
    change (act ++ Z (z + 2)).map (mapRow fun j x' => x' * p j) = _
    rw [List.map_append, Z_map _ (by simp)]; rfl
  have hav : available dens p n (act ++ Z (z + 2)) = a := by
    unfold available
    rw [hrZ, electrons_append_Z, electrons_append_Z, ha]
  have hvacZ : vacant dens (f a) (released p (act ++ Z (z + 2))) = vacant dens (f a) (released p act) := by
    rw [hrZ, vacant_append_Z dens _ (hf.nonneg _)]
  simp only [CaptureSpec, hav, hvacZ] at g5
  rw [hrZ, electrons_append_Z, electrons_append_Z] at g5
  simp only [ProfileSpec, hav, hvacZ] at g4
  refine ⟨wm', ?_, hform, fun d hd0 j => ?_⟩
  · rw [g1, ← g5]
    congr 2
    ring
  · by_cases hw : vacant dens (f a) (released p act) ≤ max 0 a
    · rw [if_pos hw, g4 hw d hd0 j, occ_append_Z _ _ d hd0 j]
    · rw [if_neg hw]
      obtain ⟨net2, wm2, q1, q2⟩ := instantStep_short dens p f hf hd hpr n act z hp hF a ha (not_le.1 hw)
      rw [g1] at q1
      injection q1 with q1
      injection q1 with q3 q4
      subst q3 q4
      exact q2 d hd0 j

theorem MgrCap.step {T : K → Prop} {M M' k : ℕ} {m m' : Mgr K} (h : MgrCap T M M' k m m') (hk : k < M) (hk' : k < M')
    {f : K → K} (hf : FillModel f) (hpos : ∀ n, 0 < n → 0 < f n) (n x : K) (hx : T x) :
    ∃ net m1 m1', m.step n x f = .ok (net, m1) ∧ m'.step n x f = .ok (net, m1') ∧ MgrCap T M M' (k + 1) m1 m1' := by
  obtain ⟨s, dens, p, wm, wm', rfl, rfl, hd, hpr, ⟨act, z, rfl, hp, hv, hF, hlen, hz⟩,
    ⟨act', z', rfl, hp', hv', hF', hlen', hz'⟩, ho⟩ := h
  have hpx := hpr x hx
  have hsame : SameProfile act act' := ⟨hp, hp', hv, hv', fun d hd j => by
    have := ho d hd j
    rwa [occ_append_Z _ _ d hd j, occ_append_Z _ _ d hd j] at this⟩
  have hrel := hsame.released (p x)
  obtain ⟨w1, a1, a2, a3⟩ := instant_profile hf hpos dens (p x) hd hpx n hk act z hp hv hF hlen hz _ rfl
  obtain ⟨w2, b1, b2, b3⟩ := instant_profile hf hpos dens (p x) hd hpx n hk' act' z' hp' hv' hF' hlen' hz' _ rfl
  rw [← hsame.electrons dens, ← hrel.electrons dens] at b1 b3
  rw [← hrel.vacant dens _ (hf.nonneg _)] at b1 b3
  have q1 := step_instant dens p (act ++ Z z) n x f
  have q2 := step_instant dens p (act' ++ Z z') n x f
  rw [a1] at q1
  rw [b1] at q2
  refine ⟨_, _, _, q1, q2, s, dens, p, w1, w2, rfl, rfl, hd, hpr, a2, b2, fun d hd0 j => ?_⟩
  rw [a3 d hd0 j, b3 d hd0 j, hsame.occ d hd0 j, hrel.upTo _ (hf.nonneg _) j]

theorem MgrCap.emptied {T : K → Prop} {M M' k : ℕ} {m m' : Mgr K} (h : MgrCap T M M' k m m') :
    MgrCap T M M' 0 m.empty m'.empty := by
  obtain ⟨s, dens, p, wm, wm', rfl, rfl, hd, hpr, ⟨act, z, rfl, hp, hv, hF, hlen, hz⟩,
    ⟨act', z', rfl, hp', hv', hF', hlen', hz'⟩, ho⟩ := h
  have hform : ∀ N, ActForm N 0 (Z (1 + N) : WM K s) := fun N =>
    ⟨[], 1 + N, rfl, by simp [Pos], by simp [volSum], by simp, le_rfl, by simp⟩
  refine ⟨s, dens, p, Z (1 + M), Z (1 + M'), ?_, ?_, hd, hpr, hform M, hform M', fun d hd j => ?_⟩
  · unfold Mgr.empty
    simp only
    congr 1
    rw [List.map_const', ← hz, List.length_append, Z_length]
    rfl
  · unfold Mgr.empty
    simp only
    congr 1
    rw [List.map_const', ← hz', List.length_append, Z_length]
    rfl
  · rw [occ_Z _ d hd, occ_Z _ d hd]

theorem mgrCap_new {T : K → Prop} {s : ℕ} (dens : Fin s → K) (p : K → Fin s → K) (M M' : ℕ) (hd : ∀ j, 0 ≤ dens j)
    (hp : ∀ x, T x → ∀ j, 0 ≤ p x j ∧ p x j < 1) :
    MgrCap T M M' 0 (Mgr.new dens (.instant p) M) (Mgr.new dens (.instant p) M') := by
  have hform : ∀ N, ActForm N 0 (Z (1 + N) : WM K s) := fun N =>
    ⟨[], 1 + N, rfl, by simp [Pos], by simp [volSum], by simp, le_rfl, by simp⟩
  refine ⟨s, dens, p, Z (1 + M), Z (1 + M'), ?_, ?_, hd, hp, hform M, hform M', fun d hd j => ?_⟩
  · simp only [Mgr.new, Kind.perTransfer, mul_one]; rfl
  · simp only [Mgr.new, Kind.perTransfer, mul_one]; rfl
  · rw [occ_Z _ d hd, occ_Z _ d hd]

/-! ### all managers -/

theorem groupsStep_cap {T : K → Prop} {M M' k : ℕ} (hk : k < M) (hk' : k < M') {f : K → K} (hf : FillModel f)
    (hpos : ∀ n, 0 < n → 0 < f n) (n x : K) (hx : T x) {ms ms' : List (Mgr K)}
    (h : List.Forall₂ (MgrCap T M M' k) ms ms') :
    ∃ net l l', groupsStep n x f ms = .ok (net, l) ∧ groupsStep n x f ms' = .ok (net, l') ∧
      List.Forall₂ (MgrCap T M M' (k + 1)) l l' := by
  induction h with
  | nil => exact ⟨0, [], [], rfl, rfl, .nil⟩
  | cons h _ ih =>
    obtain ⟨net, m1, m1', g1, g2, g3⟩ := h.step hk hk' hf hpos n x hx
    obtain ⟨net', l, l', g4, g5, g6⟩ := ih
    refine ⟨net + net', m1 :: l, m1' :: l', ?_, ?_, .cons g3 g6⟩
    · unfold groupsStep
      rw [g1, g4]
      rfl
    · unfold groupsStep
      rw [g2, g5]
      rfl

/-- Phase by phase; `u` bounds the transfers. -/
def DataCap (T : K → Prop) (M M' : ℕ) (u : ℕ → ℕ) (d d' : List (List (Mgr K))) : Prop :=
  d.length = d'.length ∧ ∀ ph ms ts, d[ph]? = some ms → d'[ph]? = some ts → List.Forall₂ (MgrCap T M M' (u ph)) ms ts

theorem DataCap.mono {T : K → Prop} {M M' : ℕ} {u u' : ℕ → ℕ} {d d' : List (List (Mgr K))}
    (h : DataCap T M M' u d d') (hu : ∀ ph, u ph ≤ u' ph) : DataCap T M M' u' d d' :=
  ⟨h.1, fun ph ms ts h1 h2 => (h.2 ph ms ts h1 h2).imp fun _ _ h => h.mono (hu ph)⟩

theorem DataCap.emptied {T : K → Prop} {M M' : ℕ} {u : ℕ → ℕ} {d d' : List (List (Mgr K))}
    (h : DataCap T M M' u d d') : DataCap T M M' (fun _ => 0) (Arctic.emptied d) (Arctic.emptied d') := by
  refine ⟨by simp [Arctic.emptied, h.1], fun ph ms ts h1 h2 => ?_⟩
  unfold Arctic.emptied at h1 h2
  rw [List.getElem?_map, Option.map_eq_some_iff] at h1 h2
  obtain ⟨ms0, h3, rfl⟩ := h1
  obtain ⟨ts0, h4, rfl⟩ := h2
  rw [List.forall₂_map_left_iff, List.forall₂_map_right_iff]
  exact (h.2 ph ms0 ts0 h3 h4).imp fun _ _ h => h.emptied

def StateCap (T : K → Prop) (M M' D : ℕ) (u : ℕ → ℕ) (b : ℕ) (s : ATM K × ATM K) : Prop :=
  s.1.data.length = D ∧ s.1.eff.length = D ∧ DataCap T M M' u s.1.data s.2.data ∧
    DataCap T M M' (fun _ => b) s.1.eff s.2.eff

theorem StateCap.react {T : K → Prop} {M M' D : ℕ} {u : ℕ → ℕ} {b : ℕ} {s : ATM K × ATM K}
    (h : StateCap T M M' D u b s) {fill : ℕ → K → K} {phase : ℕ} (hphase : phase < D) (hf : FillModel (fill phase))
    (hpos : ∀ n, 0 < n → 0 < fill phase n) (hu : u phase < M) (hu' : u phase < M') (n x : K) (hx : T x) :
    ∃ net s', (pairSys (atmSys fill) (atmSys fill)).react s phase n x = .ok (net, s') ∧
      StateCap T M M' D (bump u phase) b s' := by
  obtain ⟨a, r⟩ := s
  obtain ⟨h1, h5, ⟨h2, h3⟩, h4⟩ := h
  simp only at h1 h2 h3 h4 h5
  have q1 : a.data[phase]? = some (a.data[phase]'(by omega)) := List.getElem?_eq_getElem _
  have q2 : r.data[phase]? = some (r.data[phase]'(by omega)) := List.getElem?_eq_getElem _
  obtain ⟨net, l, l', g1, g2, g3⟩ := groupsStep_cap hu hu' hf hpos n x hx (h3 phase _ _ q1 q2)
  have ha : (atmSys fill).react a phase n x = .ok (net, { a with data := a.data.set phase l }) := by
    change a.react phase n x (fill phase) = _
    unfold ATM.react
    rw [q1]
    simp only
    rw [g1]
    rfl
  have hb : (atmSys fill).react r phase n x = .ok (net, { r with data := r.data.set phase l' }) := by
    change r.react phase n x (fill phase) = _
    unfold ATM.react
    rw [q2]
    simp only
    rw [g2]
    rfl
  refine ⟨_, _, pairSys_react (s := (a, r)) ha hb, ?_⟩
  have e := ATM.react_emptied ha
  have e' := ATM.react_emptied hb
  refine ⟨by simpa using h1, ?_, ⟨by simpa using h2, ?_⟩, ?_⟩
  · simp only
    rw [ATM.eff_of e.2 e.1]; exact h5
  · intro ph ms ts e1 e2
    simp only at e1 e2
    rw [List.getElem?_set] at e1 e2
    unfold bump
    by_cases hp : phase = ph
    · subst hp
      rw [if_pos rfl, if_pos (by omega)] at e1 e2
      injection e1 with e1
      injection e2 with e2
      subst e1 e2
      rw [if_pos rfl]
      exact g3
    · rw [if_neg hp] at e1 e2
      rw [if_neg (fun h => hp h.symm)]
      exact h3 ph ms ts e1 e2
  · simp only
    rw [ATM.eff_of e.2 e.1, ATM.eff_of e'.2 e'.1]; exact h4

def BothCap (T : K → Prop) (M M' D R C : ℕ) (u : ℕ → ℕ) (b : ℕ) (st : Image K × (ATM K × ATM K)) : Prop :=
  st.1.nr = R ∧ st.1.nc = C ∧ StateCap T M M' D u b st.2

theorem stateCap_save {T : K → Prop} {M M' D : ℕ} {fill : ℕ → K → K} {u : ℕ → ℕ} {b v : ℕ} {s : ATM K × ATM K}
    (h : StateCap T M M' D u b s) (hv : ∀ ph, u ph ≤ v) :
    StateCap T M M' D u v ((pairSys (atmSys fill) (atmSys fill)).save s) := by
  obtain ⟨a, r⟩ := s
  obtain ⟨h1, h4, h2, h3⟩ := h
  change StateCap T M M' D u v (a.save, r.save)
  refine ⟨h1, ?_, h2, ?_⟩
  · simp only [ATM.eff_save]; exact h1
  · simp only [ATM.eff_save]; exact h2.mono hv

theorem stateCap_restore {T : K → Prop} {M M' D : ℕ} {fill : ℕ → K → K} {u : ℕ → ℕ} {b : ℕ} {s : ATM K × ATM K}
    (h : StateCap T M M' D u b s) :
    StateCap T M M' D (fun _ => b) b ((pairSys (atmSys fill) (atmSys fill)).restore s) := by
  obtain ⟨a, r⟩ := s
  obtain ⟨h1, h4, h2, h3⟩ := h
  change StateCap T M M' D _ b (a.restore, r.restore)
  refine ⟨h4, ?_, h3, ?_⟩
  · simp only [ATM.eff_restore]; exact h4
  · simp only [ATM.eff_restore]; exact h3

theorem stateCap_emptyAll {T : K → Prop} {M M' D : ℕ} {fill : ℕ → K → K} {u : ℕ → ℕ} {b : ℕ} {s : ATM K × ATM K}
    (h : StateCap T M M' D u b s) :
    StateCap T M M' D (fun _ => 0) b ((pairSys (atmSys fill) (atmSys fill)).emptyAll s) := by
  obtain ⟨a, r⟩ := s
  obtain ⟨h1, h4, h2, h3⟩ := h
  change StateCap T M M' D _ b (a.emptyAll, r.emptyAll)
  have he : ∀ a : ATM K, a.emptyAll.eff = a.eff := fun a =>
    ATM.eff_of rfl (by rw [ATM.emptied_emptyAll, emptied_emptied])
  refine ⟨by simpa [ATM.emptyAll] using h1, ?_, ?_, ?_⟩
  · simp only [he]; exact h4
  · simp only [ATM.emptied_emptyAll]; exact h2.emptied
  · simp only [he]; exact h3

theorem bothCap_inv {cfg : ClockCfg K} {fill : ℕ → K → K} {D R C N M' c : ℕ} (hcfg : RunCfg cfg fill D R)
    (hpos : ∀ ph ∈ cfg.phases, ∀ n, 0 < n → 0 < fill ph n) (hM : N * cfg.steps.length ≤ M') (hc : c < C) :
    BudgetInv (pairSys (atmSys fill) (atmSys fill)) cfg (fun _ => False) N c
      (BothCap (0 < ·) (N * cfg.steps.length) M' D R C) where
  phase k hk j hj step hs phase hp u b st hst hu := by
    obtain ⟨i, s⟩ := st
    obtain ⟨h1, h2, h3⟩ := hst
    simp only at h1 h2 h3
    obtain ⟨ph, dw, l1, l2, l3⟩ := hcfg.look step hs phase hp
    obtain ⟨w, l4⟩ := hcfg.rows k hk j hj
    obtain ⟨r1, r2⟩ := hcfg.range step phase ph l1 w (List.mem_of_getElem? l4)
    unfold phaseBody
    rw [l1, l2, l4]
    simp only
    unfold Image.read
    rw [if_pos ⟨r1.1, by rw [h1]; exact r1.2, by rw [h2]; exact hc⟩]
    simp only [bind, Except.bind]
    obtain ⟨net, s', g1, g2⟩ := h3.react (hcfg.phases phase hp) (hcfg.fillModel phase hp) (hpos phase hp) hu
      (hu.trans_le hM) (i.px ((w : ℤ) + ph.captureFrom).toNat c * if ph.isHigh then 1 else 0) dw l3
    rw [g1]
    simp only
    split
    · exact ⟨h1, h2, g2⟩
    · obtain ⟨i', q1, q2, q3⟩ := writeAll_inRange (img := i) (row0 := w) (c := c) (net := net)
        (mult := cfg.expr.e k j) (rel := ph.release) (by rw [h2]; exact hc) (fun o ho => by rw [h1]; exact r2 o ho)
      rw [q1]
      exact ⟨q2.trans h1, q3.trans h2, g2⟩
  save _ u b v st h hv := ⟨h.1, h.2.1, stateCap_save h.2.2 hv⟩
  restore u b st h := ⟨h.1, h.2.1, stateCap_restore h.2.2⟩
  mono u u' b st h hu := ⟨h.1, h.2.1, h.2.2.1, h.2.2.2.1, h.2.2.2.2.1.mono hu, h.2.2.2.2.2⟩

theorem bothCap_loops {cfg : ClockCfg K} {fill : ℕ → K → K} {D R C N M' : ℕ} {pos : ℕ → ℕ → ℕ}
    (hcfg : RunCfg cfg fill D R) (hpos : ∀ ph ∈ cfg.phases, ∀ n, 0 < n → 0 < fill ph n)
    (hM : N * cfg.steps.length ≤ M') (hsch : Schedule cfg N pos) (heb : cfg.emptyBetween = true) (columns : List ℕ)
    (hcols : ∀ c ∈ columns, c < C) (st : Image K × (ATM K × ATM K))
    (hst : BothCap (0 < ·) (N * cfg.steps.length) M' D R C (fun _ => 0) 0 st) :
    ∃ out a r, clockLoops (atmSys fill) cfg columns (st.1, st.2.1) = .ok (out, a) ∧
      clockLoops (atmSys fill) cfg columns (st.1, st.2.2) = .ok (out, r) ∧ out.nr = R ∧ out.nc = C := by
  have key : Sat (fun _ => False) (BothCap (0 < ·) (N * cfg.steps.length) M' D R C (fun _ => 0) 0)
      (clockLoops (pairSys (atmSys fill) (atmSys fill)) cfg columns st) := by
    unfold clockLoops
    refine Sat.fold' _ _ _ (fun c hc st hst => ?_) st hst
    unfold columnBody
    refine Sat.bind ((bothCap_inv (N := N) hcfg hpos hM (hcols c hc)).passes hcfg.nodup hsch st _ hst) ?_
    rintro st' ⟨u', b', h1, h2, h3⟩
    rw [heb, if_pos rfl]
    exact ⟨h1, h2, stateCap_save (stateCap_emptyAll h3) fun _ => le_rfl⟩
  obtain ⟨st', h1, h2⟩ := key.total
  exact ⟨st'.1, st'.2.1, st'.2.2, (pairSys_fst _ _).clockLoops cfg columns st st' h1,
    (pairSys_snd _ _).clockLoops cfg columns st st' h1, h2.1, h2.2.1⟩

/-- A group of instant-capture traps as given to the code: non-negative densities and, for every positive dwell time, a
fraction in `[0, 1)` of the filled traps that stays filled. -/
def Group.Instant (g : Group K) : Prop :=
  (∀ j, 0 ≤ g.dens j) ∧ ∃ p, g.kind = .instant p ∧ ∀ x, 0 < x → ∀ j, 0 ≤ p x j ∧ p x j < 1

theorem stateCap_new {M M' : ℕ} (groups : List (Group K)) (fractions : List K) (hfr : ∀ x ∈ fractions, 0 ≤ x)
    (hg : ∀ g ∈ groups, g.Instant) :
    StateCap (0 < ·) M M' fractions.length (fun _ => 0) 0 (ATM.new groups fractions M, ATM.new groups fractions M') := by
  have h0 : DataCap (0 < ·) M M' (fun _ => 0) (ATM.new groups fractions M).data (ATM.new groups fractions M').data := by
    refine ⟨by simp [ATM.new], fun ph ms ts h1 h2 => ?_⟩
    unfold ATM.new at h1 h2
    simp only at h1 h2
    rw [List.getElem?_map, Option.map_eq_some_iff] at h1 h2
    obtain ⟨x, h3, rfl⟩ := h1
    obtain ⟨y, h4, rfl⟩ := h2
    rw [h3] at h4
    injection h4 with h4
    subst h4
    have hx := hfr x (List.mem_of_getElem? h3)
    rw [List.forall₂_map_left_iff, List.forall₂_map_right_iff, List.forall₂_same]
    intro g hgm
    obtain ⟨g1, p, g2, g3⟩ := hg g hgm
    rw [g2]
    exact mgrCap_new (fun j => g.dens j * x) p M M' (fun j => mul_nonneg (g1 j) hx) g3
  have hF := (fresh_new groups fractions M).2.1
  have hF' := (fresh_new groups fractions M').2.1
  refine ⟨by simp [ATM.new], ?_, h0, ?_⟩
  · simp only [hF]; simp [ATM.new]
  · simp only [hF, hF']; exact h0

end Arctic
