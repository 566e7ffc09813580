import Verif.Lemmas.PixelChange

/-!
# Clouds that fill the pixel

Above the level at which the cloud fills the pixel and there are electrons for every trap, the reaction of the traps does
not depend on the number of electrons.
-/

set_option linter.unusedSectionVars false
set_option linter.unusedVariables false

namespace Arctic
open Finset

variable {K : Type} [Field K] [LinearOrder K] [IsStrictOrderedRing K] {s : ℕ}

/-! ### one transfer -/

theorem finishCapture_sat (filled : K) (trapped : WM K s → K) (tweak : WM K s → WM K s → K → Except Err (WM K s))
    (nInit : K) (wm init : WM K s) :
    ∃ d w, ∀ n, 0 < n → d ≤ n → finishCapture filled trapped tweak n nInit wm init = .ok (d, w) := by
  unfold finishCapture
  by_cases h : trapped (collapseCopy filled wm init).1 = nInit
  · refine ⟨0, (collapseCopy filled wm init).1, fun n hn _ => ?_⟩
    simp only [h, if_true]
  · refine ⟨trapped (collapseCopy filled wm init).1 - nInit, collapse filled (collapseCopy filled wm init).1,
      fun n hn hd => ?_⟩
    simp only
    rw [if_neg h, if_neg]
    rintro ⟨h1, h2⟩
    have hp : 0 < trapped (collapseCopy filled wm init).1 - nInit := by
      by_contra hc
      exact absurd h1 (not_lt.2 (div_nonpos_of_nonneg_of_nonpos hn.le (not_lt.1 hc)))
    rw [div_lt_one hp] at h2
    exact absurd hd (not_le.2 h2)

theorem icFirstCapture_sat (ops : ICOps K s) (c : K) (init wm : WM K s)
    (h0 : 0 ≤ ops.trapped (wm.modify 0 fun _ => ⟨c, fun _ => ops.filled⟩)) :
    ∃ d w, ∀ n, 0 < n → d ≤ n → icFirstCapture ops n c init wm = .ok (d, w) := by
  refine ⟨ops.trapped (wm.modify 0 fun _ => ⟨c, fun _ => ops.filled⟩), wm.modify 0 fun _ => ⟨c, fun _ => ops.filled⟩,
    fun n hn hd => ?_⟩
  unfold icFirstCapture
  simp only
  by_cases h : ops.trapped (wm.modify 0 fun _ => ⟨c, fun _ => ops.filled⟩) = 0
  · rw [if_pos h, h]
  · rw [if_neg h, if_neg]
    rw [not_lt, le_div_iff₀ (lt_of_le_of_ne h0 (Ne.symm h)), one_mul]
    exact hd

/-- Capture from clouds of the same volume with electrons for all traps in them. -/
theorem icCapture_sat (ops : ICOps K s) (f : K → K) (c : K) (wm : WM K s)
    (h0 : maxWatermarkIndex wm = -1 → 0 ≤ ops.trapped (wm.modify 0 fun _ => ⟨c, fun _ => ops.filled⟩)) :
    ∃ d res, (∀ n, 0 < n → f n = c → d ≤ n → icCapture ops f n wm = res) ∧
      (d = 0 ∨ ∃ w, res = .ok (d, w)) := by
  by_cases hm : maxWatermarkIndex wm = -1
  · obtain ⟨d, w, h⟩ := icFirstCapture_sat ops c wm wm (h0 hm)
    refine ⟨d, .ok (d, w), fun n hn hf hd => ?_, Or.inr ⟨w, rfl⟩⟩
    unfold icCapture
    simp only
    rw [if_pos ⟨hm, hn⟩, hf]
    exact h n hn hd
  · cases hs : (if watermarkIndexAboveCloud c wm (maxWatermarkIndex wm) ≤ maxWatermarkIndex wm ∨
          maxWatermarkIndex wm = -1 then do
        let (wm, init, _) ← splitAtCloud c (watermarkIndexAboveCloud c wm (maxWatermarkIndex wm)) (maxWatermarkIndex wm) wm wm
        .ok (wm, init)
      else newTopWatermark c (watermarkIndexAboveCloud c wm (maxWatermarkIndex wm)) wm wm :
        Except Err (WM K s × WM K s)) with
    | error e =>
      refine ⟨0, .error e, fun n hn hf _ => ?_, Or.inl rfl⟩
      unfold icCapture
      simp only
      rw [if_neg (fun h => hm h.1), hf, hs]
      rfl
    | ok o =>
      obtain ⟨d, w, h⟩ := finishCapture_sat ops.filled ops.trapped ops.tweak (ops.trapped wm)
        (mapFills 0 (watermarkIndexAboveCloud c wm (maxWatermarkIndex wm) + 1).toNat (fun _ _ => ops.filled) o.1) o.2
      refine ⟨d, .ok (d, w), fun n hn hf hd => ?_, Or.inr ⟨w, rfl⟩⟩
      unfold icCapture
      simp only
      rw [if_neg (fun h => hm h.1), hf, hs]
      exact h n hn hd

/-- What is needed of the state: release gives electrons, but not more than there are. -/
structure Releases (ops : ICOps K s) (wm : WM K s) : Prop where
  nonneg : 0 ≤ (icRelease ops wm).1
  rest : 0 ≤ ops.trapped wm - (icRelease ops wm).1
  first : maxWatermarkIndex (icRelease ops wm).2 = -1 → ∀ c, 0 < c →
    0 ≤ ops.trapped ((icRelease ops wm).2.modify 0 fun _ => ⟨c, fun _ => ops.filled⟩)

theorem ICLaw.releases {ops : ICOps K s} {h : (Fin s → K) → K} (law : ICLaw ops h) (act : WM K s) (z : ℕ) (hp : Pos act)
    (hle : wsum h (act.map (mapRow ops.release)) ≤ wsum h act) (hge : 0 ≤ wsum h (act.map (mapRow ops.release))) :
    Releases ops (act ++ Z (z + 2)) := by
  have hp1 : Pos (act.map (mapRow ops.release)) := pos_of_vols (vols_mapRow _ act).symm hp
  have hr := icRelease_eq ops act (z + 1) hp.ne
  have e1 := law.trapped act (z + 1) hp
  have e2 := law.trapped _ (z + 1) hp1
  refine ⟨?_, ?_, ?_⟩
  · rw [hr, e1, e2]; simp only; linarith
  · rw [hr, e1, e2]; simp only; linarith
  · rw [hr]
    simp only
    intro hm c hc
    have hmx := maxWatermarkIndex_eq (act.map (mapRow ops.release)) (z + 1) hp1.ne
    rw [show z + 1 + 1 = z + 2 from rfl] at hmx
    rw [hmx] at hm
    have hnil : act = [] := by
      cases act with
      | nil => rfl
      | cons a l => simp only [List.length_map, List.length_cons] at hm; push_cast at hm; omega
    subst hnil
    have e3 : (([] : WM K s).map (mapRow ops.release) ++ Z (z + 1 + 1)).modify 0 (fun _ => ⟨c, fun _ => ops.filled⟩) =
        [⟨c, fun _ => ops.filled⟩] ++ Z (z + 1) := by
      rw [List.map_nil, List.nil_append, Z_succ]; rfl
    rw [e3]
    rw [law.trapped _ _ (by intro r hr; rw [List.mem_singleton] at hr; rw [hr]; exact hc), wsum_cons, wsum_nil, add_zero]
    exact mul_nonneg hc.le law.filled_nonneg

theorem wsum_release {h : (Fin s → K) → K} {g : Fin s → K → K} {P : (Fin s → K) → Prop}
    (hg : ∀ x, P x → 0 ≤ h (fun j => g j (x j)) ∧ h (fun j => g j (x j)) ≤ h x) (act : WM K s) (hp : Pos act)
    (hP : ∀ r ∈ act, P r.fill) :
    wsum h (act.map (mapRow g)) ≤ wsum h act ∧ 0 ≤ wsum h (act.map (mapRow g)) := by
  induction act with
  | nil => simp [wsum_nil]
  | cons r l ih =>
    obtain ⟨h1, h2⟩ := ih (fun x hx => hp x (List.mem_cons_of_mem _ hx)) fun x hx => hP x (List.mem_cons_of_mem _ hx)
    obtain ⟨h3, h4⟩ := hg r.fill (hP r List.mem_cons_self)
    have hv := (hp r List.mem_cons_self).le
    rw [List.map_cons, wsum_cons, wsum_cons]
    exact ⟨add_le_add (mul_le_mul_of_nonneg_left h4 hv) h1, add_nonneg (mul_nonneg hv h3) h2⟩

/-- The members of the class of a manager. -/
def Mgr.ops (m : Mgr K) (t : K) : ICOps K m.s :=
  match m.kind with
  | .slow p => instantOps m.dens fun _ => 0
  | .instant p => instantOps m.dens (p t)
  | .trackTime c => trackTimeOps m.dens c t

theorem MgrOk.releases {T : K → Prop} {M k : ℕ} {m : Mgr K} (h : MgrOk T M k m) (hk : k < M) (t : K) (ht : T t)
    (ht0 : 0 ≤ t) : Releases (m.ops t) m.wm := by
  obtain ⟨hd, hkind, i, hik, -, hst⟩ := h
  obtain ⟨s, dens, kind, wm⟩ := m
  cases kind with
  | slow p => exact hst.elim
  | instant p =>
    change Releases (instantOps dens (p t)) wm
    change InstState (s := s) (1 + M) i wm at hst
    change ∀ j : Fin s, 0 ≤ dens j at hd
    obtain ⟨hl, ⟨act, z, rfl, hp, hv, hF, hlen⟩ | ⟨h1, z, rfl⟩⟩ := hst
    · obtain ⟨z, rfl⟩ : ∃ q, z = q + 2 := ⟨z - 2, by rw [List.length_append, Z_length] at hl; omega⟩
      have hw := wsum_release (h := eDens dens) (g := (instantOps dens (p t)).release) (P := Frac) (fun x hx => by
        constructor
        · exact Finset.sum_nonneg fun j _ => mul_nonneg (mul_nonneg (hx j).1 (hkind t ht j).1) (hd j)
        · exact Finset.sum_le_sum fun j _ => mul_le_mul_of_nonneg_right
            (mul_le_of_le_one_right (hx j).1 (hkind t ht j).2) (hd j)) act hp hF
      exact (instantLaw dens (p t) hd).releases act z hp hw.1 hw.2
    · have hr := icRelease_stale (instantOps dens (p t)) (⟨0, fun _ => 1⟩ : Row K s) z rfl
      obtain ⟨z, rfl⟩ : ∃ q, z = q + 1 := ⟨z - 1, by rw [List.length_cons, Z_length] at hl; omega⟩
      refine ⟨?_, ?_, ?_⟩
      · rw [hr]
      · rw [hr, sub_zero]
        change 0 ≤ cyNTrapped _ _
        rw [cyNTrapped_eq, wsum_cons, wsum_Z, zero_mul, add_zero]
      · rw [hr]
        intro _ c hc
        change 0 ≤ (instantOps dens (p t)).trapped ([(⟨c, fun _ => 1⟩ : Row K s)] ++ Z (z + 1))
        rw [(instantLaw dens (p t) hd).trapped _ _ (by intro r hr; rw [List.mem_singleton] at hr; rw [hr]; exact hc),
          wsum_cons, wsum_nil, add_zero]
        exact mul_nonneg hc.le (instantLaw dens (p t) hd).filled_nonneg
  | trackTime c =>
    change Releases (trackTimeOps dens c t) wm
    change TrackState (s := s) (1 + M) i wm at hst
    change ∀ j : Fin s, 0 ≤ dens j at hd
    obtain ⟨act, z, rfl, hp, hv, hT, hlen, hl⟩ := hst
    obtain ⟨z, rfl⟩ : ∃ q, z = q + 2 := ⟨z - 2, by omega⟩
    have hw := wsum_release (h := tDens dens c) (g := (trackTimeOps dens c t).release) (P := Times) (fun x hx => by
      constructor
      · change 0 ≤ ∑ j, c j (x j + t) * dens j
        exact Finset.sum_nonneg fun j _ => mul_nonneg (hkind.2.1 j _ (add_nonneg (hx j) ht0)).1 (hd j)
      · change ∑ j, c j (x j + t) * dens j ≤ ∑ j, c j (x j) * dens j
        exact Finset.sum_le_sum fun j _ => mul_le_mul_of_nonneg_right
          (hkind.2.2 j _ _ (hx j) (le_add_of_nonneg_right ht0)) (hd j)) act hp hT
    exact (trackTimeLaw dens c t hd fun j => (hkind.1 j).symm ▸ zero_le_one).releases act z hp hw.1 hw.2

/-- **Saturation of a manager.** -/
theorem MgrOk.step_sat {T : K → Prop} {M k : ℕ} {m : Mgr K} (h : MgrOk T M k m) (hk : k < M) {f : K → K}
    (hf : FillModel f) {L : K} (hL : 0 < L) (hfull : ∀ n, L ≤ n → f n = 1) (htr : m.traps ≤ L) (t : K) (ht : T t)
    (ht0 : 0 ≤ t) {n n' : K} (hn : L ≤ n) (hn' : L ≤ n') : m.step n t f = m.step n' t f := by
  have hrel := h.releases hk t ht ht0
  have hstep : ∀ n, m.step n t f = (icStep (m.ops t) f n m.wm).map fun o => (o.1, { m with wm := o.2 }) := by
    intro n
    obtain ⟨hd, hkind, i, hik, -, hst⟩ := h
    obtain ⟨s, dens, kind, wm⟩ := m
    cases kind with
    | slow p => exact hst.elim
    | instant p => exact step_instant dens p wm n t f
    | trackTime c => exact step_track dens c wm n t f
  have htrap : m.nTrapped = (m.ops t).trapped m.wm := by
    obtain ⟨hd, hkind, i, hik, -, hst⟩ := h
    obtain ⟨s, dens, kind, wm⟩ := m
    cases kind with
    | slow p => exact hst.elim
    | instant p => rfl
    | trackTime c => rfl
  obtain ⟨r1, r2, r3⟩ := hrel
  obtain ⟨d, res, g1, g2⟩ := icCapture_sat (m.ops t) f 1 (icRelease (m.ops t) m.wm).2 fun hm => r3 hm 1 one_pos
  set R := (icRelease (m.ops t) m.wm).1 with hR
  have hic : ∀ n, L ≤ n → d ≤ n → icStep (m.ops t) f n m.wm = res.map fun o => (R - o.1, o.2) := by
    intro n h1 h2
    unfold icStep
    have e : icRelease (m.ops t) m.wm = (R, (icRelease (m.ops t) m.wm).2) := rfl
    rw [e]
    simp only
    rw [g1 (n + R) (by linarith) (hfull _ (by linarith)) (by linarith)]
    cases res <;> rfl
  have hd : d ≤ L := by
    rcases g2 with rfl | ⟨w, rfl⟩
    · exact hL.le
    have hN := hic (max L d) (le_max_left _ _) (le_max_right _ _)
    have hs := hstep (max L d)
    rw [hN] at hs
    obtain ⟨q1, q2, -⟩ := (h.step hk hf (max L d) t ht ht0).ok hs
    have q3 := q1.nTrapped_le
    rw [Mgr.step_traps hs] at q3
    simp only at q2
    rw [htrap] at q2
    linarith
  rw [hstep n, hstep n', hic n hn (hd.trans hn), hic n' hn' (hd.trans hn')]

theorem groupsStep_sat {M k : ℕ} (hk : k < M) {f : K → K} (hf : FillModel f) {L : K} (hL : 0 < L)
    (hfull : ∀ n, L ≤ n → f n = 1) (t : K) (ht : 0 < t) {n n' : K} (hn : L ≤ n) (hn' : L ≤ n') (ms : List (Mgr K))
    (hm : ∀ m ∈ ms, MgrOk (0 < ·) M k m ∧ m.traps ≤ L) : groupsStep n t f ms = groupsStep n' t f ms := by
  induction ms with
  | nil => rfl
  | cons m ms ih =>
    unfold groupsStep
    rw [(hm m List.mem_cons_self).1.step_sat hk hf hL hfull (hm m List.mem_cons_self).2 t ht ht.le hn hn',
      ih fun x hx => hm x (List.mem_cons_of_mem _ hx)]

/-! ### a system that checks its reactions -/

section check
variable {S : Type}

open Classical in
/-- The system `A`, which fails if more than `B` is released or captured, or if the reaction to `L` or more electrons
depends on their number. -/
noncomputable def satSys (A : TrapSys K S) (B : ℕ → K) (L : K) : TrapSys K S where
  restore := A.restore
  save := A.save
  emptyAll := A.emptyAll
  react s ph n dw := do
    let o ← A.react s ph n dw
    if |o.1| ≤ B ph ∧ (L ≤ n → ∀ n', L ≤ n' → A.react s ph n' dw = .ok o) then .ok o else .error .exception

theorem satSys_ok {A : TrapSys K S} {B : ℕ → K} {L : K} {s : S} {ph : ℕ} {n dw : K} {o : K × S}
    (h : (satSys A B L).react s ph n dw = .ok o) :
    |o.1| ≤ B ph ∧ (L ≤ n → ∀ n', L ≤ n' → (satSys A B L).react s ph n' dw = .ok o) := by
  unfold satSys at h ⊢
  simp only at h ⊢
  obtain ⟨o', h1, h⟩ := bind_eq_ok h
  split at h
  · rename_i hb
    injection h with h
    subst h
    refine ⟨hb.1, fun hn n' hn' => ?_⟩
    rw [hb.2 hn n' hn', bind_ok, if_pos ⟨hb.1, fun _ => hb.2 hn⟩]
  · cases h

theorem satSys_lim (A : TrapSys K S) (B : ℕ → K) (L : K) (s : S) (ph : ℕ) (n dw : K) :
    Lim (A.react s ph n dw) ((satSys A B L).react s ph n dw) := by
  unfold satSys
  simp only
  cases A.react s ph n dw with
  | error e => exact Lim.refl _
  | ok o =>
    rw [bind_ok]
    split
    · exact Lim.refl _
    · exact Or.inr rfl

theorem columnBody_sat_lim (A : TrapSys K S) (B : ℕ → K) (L : K) (cfg : ClockCfg K) (c : ℕ) (st : Image K × S) :
    Lim (columnBody A cfg st c) (columnBody (satSys A B L) cfg st c) := by
  unfold columnBody
  refine Lim.bind (foldlM_lim _ (fun st k => ?_) st) fun st => Lim.refl _
  unfold expressBody
  refine foldlM_lim _ (fun st j => ?_) _
  unfold rowBody
  refine Lim.bind (foldlM_lim _ (fun st step => ?_) _) fun st => Lim.refl _
  unfold stepBody
  refine foldlM_lim _ (fun st phase => ?_) _
  unfold phaseBody
  split
  · exact Lim.bind (Lim.refl _) fun v => Lim.bind (satSys_lim _ _ _ _ _ _ _) fun o => Lim.refl _
  · exact Lim.refl _

end check

theorem phaseTraps_mem {d : List (List (Mgr K))} {ph : ℕ} {ms : List (Mgr K)} (h : d[ph]? = some ms)
    (hm : ∀ m ∈ ms, 0 ≤ m.traps) : ∀ m ∈ ms, m.traps ≤ phaseTraps d ph := by
  intro m hmem
  unfold phaseTraps
  rw [h, Option.getD_some]
  exact List.single_le_sum (fun x hx => by
    obtain ⟨y, hy, rfl⟩ := List.mem_map.1 hx
    exact hm y hy) _ (List.mem_map_of_mem hmem)

open Classical in
theorem satState_inv {tr : Prop} {D0 : List (List (Mgr K))} {cfg : ClockCfg K} {fill : ℕ → K → K} {D R C N c : ℕ}
    {L : K} (hcfg : RunCfg cfg fill D R) (hc : c < C) (hL : 0 < L) (hfull : ∀ ph ∈ cfg.phases, ∀ n, L ≤ n → fill ph n = 1)
    (htr : ∀ ph ∈ cfg.phases, phaseTraps D0 ph ≤ L) :
    BudgetInv (satSys (atmSys fill) (phaseTraps D0) L) cfg (fun e => tr ∧ e = .typeError) N c
      (TrapState tr D0 (N * cfg.steps.length) D R C) where
  phase k hk j hj step hs phase hp u b st hst hu := by
    obtain ⟨i, s⟩ := st
    obtain ⟨⟨h1, h2, h3, h4⟩, h5, h6⟩ := hst
    simp only at h1 h2 h3 h4 h5 h6
    obtain ⟨ph, dw, l1, l2, l3⟩ := hcfg.look step hs phase hp
    obtain ⟨w, l4⟩ := hcfg.rows k hk j hj
    obtain ⟨r1, r2⟩ := hcfg.range step phase ph l1 w (List.mem_of_getElem? l4)
    unfold phaseBody
    rw [l1, l2, l4]
    simp only
    unfold Image.read
    rw [if_pos ⟨r1.1, by rw [h1]; exact r1.2, by rw [h2]; exact hc⟩]
    refine Sat.bind (Q := fun _ => True) trivial fun v _ => ?_
    have hS : Sat (fun e => tr ∧ e = .typeError)
        (fun o : K × ATM K => (DataOk tr (N * cfg.steps.length) D (bump u phase) o.2.data ∧ o.2.eff = s.eff) ∧
          emptied o.2.data = D0)
        ((satSys (atmSys fill) (phaseTraps D0) L).react s phase (v * if ph.isHigh then 1 else 0) dw) := by
      change Sat _ _ (s.react phase (v * if ph.isHigh then 1 else 0) dw (fill phase) >>= _)
      have hr := h3.react (f := fill phase) (hcfg.phases phase hp) (hcfg.fillModel phase hp) hu
        (v * if ph.isHigh then 1 else 0) dw l3
      cases he : s.react phase (v * if ph.isHigh then 1 else 0) dw (fill phase) with
      | error e => exact hr.err he
      | ok o =>
        have g := hr.ok he
        obtain ⟨ms, ms', q1, q2, q3⟩ := ATM.react_data he
        have hpt : phaseTraps D0 phase = phaseTraps s.data phase := by rw [← h5, phaseTraps_emptied]
        have hb : |o.1| ≤ phaseTraps D0 phase := by
          rw [hpt, phaseTraps, q1]
          exact groupsStep_net hu (hcfg.fillModel phase hp) _ dw l3 ms ms' o.1
            (fun m hm => (h3.2 phase ms q1 m hm).1) q2
        have hsat : L ≤ (v * if ph.isHigh then 1 else 0) → ∀ n', L ≤ n' → s.react phase n' dw (fill phase) = .ok o := by
          intro hn n' hn'
          rw [← he]
          unfold ATM.react
          rw [q1]
          simp only
          rw [groupsStep_sat hu (hcfg.fillModel phase hp) hL (hfull phase hp) dw l3 hn' hn ms fun m hm =>
            ⟨(h3.2 phase ms q1 m hm).1, ?_⟩]
          refine (phaseTraps_mem q1 (fun m hm => ?_) m hm).trans (hpt ▸ htr phase hp)
          exact Finset.sum_nonneg fun j _ => (h3.2 phase ms q1 m hm).1.dens j
        change Sat _ _ (if _ then _ else _)
        rw [if_pos ⟨hb, hsat⟩]
        exact ⟨g, by rw [(ATM.react_emptied he).1]; exact h5⟩
    refine Sat.bind hS ?_
    rintro ⟨net, s'⟩ ⟨⟨g1, g2⟩, g3⟩
    simp only at g1 g2 g3 ⊢
    split
    · exact ⟨⟨h1, h2, g1, by simp only [g2]; exact h4⟩, g3, by simp only [g2]; exact h6⟩
    · obtain ⟨i', q1, q2, q3⟩ := writeAll_inRange (img := i) (row0 := w) (c := c) (net := net)
        (mult := cfg.expr.e k j) (rel := ph.release) (by rw [h2]; exact hc) (fun o ho => by rw [h1]; exact r2 o ho)
      rw [q1]
      exact ⟨⟨q2.trans h1, q3.trans h2, g1, by simp only [g2]; exact h4⟩, g3, by simp only [g2]; exact h6⟩
  save _ u b v st h hv := ⟨⟨h.1.1, h.1.2.1, h.1.2.2.1, by
    change DataOk _ _ _ _ st.2.save.eff
    rw [ATM.eff_save]; exact h.1.2.2.1.mono hv⟩, h.2.1, by
    change emptied st.2.save.eff = D0
    rw [ATM.eff_save]; exact h.2.1⟩
  restore u b st h := ⟨⟨h.1.1, h.1.2.1, h.1.2.2.2, by
    change DataOk _ _ _ _ st.2.restore.eff
    rw [ATM.eff_restore]; exact h.1.2.2.2⟩, h.2.2, by
    change emptied st.2.restore.eff = D0
    rw [ATM.eff_restore]; exact h.2.2⟩
  mono u u' b st h hu := ⟨⟨h.1.1, h.1.2.1, h.1.2.2.1.mono hu, h.1.2.2.2⟩, h.2⟩

/-- The passes over one column give the same with the checks. -/
theorem columnBody_satSys {tr : Prop} {cfg : ClockCfg K} {fill : ℕ → K → K} {D R C N c : ℕ} {pos : ℕ → ℕ → ℕ}
    (hcfg : RunCfg cfg fill D R) (hsch : Schedule cfg N pos) (hc : c < C) (D0 : List (List (Mgr K))) {L : K} (hL : 0 < L)
    (hfull : ∀ ph ∈ cfg.phases, ∀ n, L ≤ n → fill ph n = 1) (htr : ∀ ph ∈ cfg.phases, phaseTraps D0 ph ≤ L)
    (st : Image K × ATM K) (hst : TrapState tr D0 (N * cfg.steps.length) D R C (fun _ => 0) 0 st)
    {out : Image K × ATM K} (h : columnBody (atmSys fill) cfg st c = .ok out) :
    columnBody (satSys (atmSys fill) (phaseTraps D0) L) cfg st c = .ok out := by
  have hb := (satState_inv (tr := tr) (D0 := D0) (N := N) hcfg hc hL hfull htr).passes hcfg.nodup hsch st _ hst
  rcases columnBody_sat_lim (atmSys fill) (phaseTraps D0) L cfg c st with he | he
  · rw [he, h]
  · exfalso
    unfold columnBody at he
    cases hp : (List.range cfg.expr.nr).foldlM (expressBody (satSys (atmSys fill) (phaseTraps D0) L) cfg c) st with
    | error e =>
      rw [hp] at he
      obtain ⟨-, rfl⟩ := hb.err hp
      cases he
    | ok o => rw [hp] at he; cases he

/-! ### two images -/

/-- Two runs that can be told apart only by pixels bright enough in both, with this much to spare. -/
structure Apart {S : Type} (c : ℕ) (L : K) (δ : ℕ → K) (b : ℕ → K) (st st' : Image K × S) : Prop where
  nr : st'.1.nr = st.1.nr
  nc : st'.1.nc = st.1.nc
  traps : st'.2 = st.2
  pixels : ∀ r, st'.1.px r c = st.1.px r c + δ r
  bright : ∀ r, δ r = 0 ∨ (L + b r ≤ st.1.px r c ∧ L + b r ≤ st'.1.px r c)

theorem foldlM_apart {α σ : Type} (P : (ℕ → K) → σ → σ → Prop) (f : σ → α → Except Err σ) (inc : α → ℕ → K) (l : List α)
    (hinc : ∀ a ∈ l, ∀ r, 0 ≤ inc a r)
    (h : ∀ a ∈ l, ∀ b : ℕ → K, (∀ r, 0 ≤ b r) → ∀ s s' t, P (fun r => b r + inc a r) s s' → f s a = .ok t →
      ∃ t', f s' a = .ok t' ∧ P b t t') :
    ∀ b : ℕ → K, (∀ r, 0 ≤ b r) → ∀ s s' t, P (fun r => b r + (l.map fun a => inc a r).sum) s s' →
      l.foldlM f s = .ok t → ∃ t', l.foldlM f s' = .ok t' ∧ P b t t' := by
  induction l with
  | nil =>
    intro b _ s s' t hs hr
    rw [foldlM_nil] at hr
    injection hr with hr
    subst hr
    exact ⟨s', rfl, by simpa using hs⟩
  | cons a l ih =>
    intro b hb s s' t hs hr
    rw [foldlM_cons] at hr
    obtain ⟨s1, h1, h2⟩ := bind_eq_ok hr
    have hl : ∀ r, 0 ≤ (l.map fun a => inc a r).sum := fun r => List.sum_nonneg fun x hx => by
      obtain ⟨y, hy, rfl⟩ := List.mem_map.1 hx
      exact hinc y (List.mem_cons_of_mem _ hy) r
    obtain ⟨t1, g1, g2⟩ := h a List.mem_cons_self (fun r => b r + (l.map fun a => inc a r).sum)
      (fun r => add_nonneg (hb r) (hl r)) s s' s1 (by
        simp only [List.map_cons, List.sum_cons] at hs
        have e : (fun r => b r + (inc a r + (l.map fun a => inc a r).sum)) =
            fun r => b r + (l.map fun a => inc a r).sum + inc a r := funext fun r => by ring
        rw [e] at hs
        exact hs) h1
    obtain ⟨t', g3, g4⟩ := ih (fun a ha => hinc a (List.mem_cons_of_mem _ ha))
      (fun a ha => h a (List.mem_cons_of_mem _ ha)) b hb s1 t1 t g2 h2
    exact ⟨t', by rw [foldlM_cons, g1]; exact g3, g4⟩

section apart
variable {S : Type}

theorem writeBack_apart {img img' out : Image K} {row : ℤ} {c : ℕ} {L : K} {δ b : ℕ → K} {delta : K} {s : S} (hL : 0 ≤ L)
    (hb : ∀ r, 0 ≤ b r)
    (hA : Apart c L δ (fun r => b r + if row = r then |delta| else 0) (img, s) (img', s))
    (h : writeBack img row c delta = .ok out) :
    ∃ out', writeBack img' row c delta = .ok out' ∧ Apart c L δ b (out, s) (out', s) := by
  obtain ⟨a1, a2, -, a4, a5⟩ := hA
  simp only at a1 a2 a4 a5
  unfold writeBack at h ⊢
  obtain ⟨old, h1, h⟩ := bind_eq_ok h
  injection h with h
  obtain ⟨g1, g2, g3, rfl⟩ := read_ok h1
  subst h
  obtain ⟨r, rfl⟩ : ∃ r : ℕ, row = r := ⟨row.toNat, by omega⟩
  have hread : img'.read r c = .ok (img'.px r c) := by
    unfold Image.read
    rw [if_pos ⟨g1, by rw [a1]; exact g2, by rw [a2]; exact g3⟩]
    rfl
  rw [hread]
  refine ⟨_, rfl, ?_⟩
  simp only [Int.toNat_natCast, Nat.cast_inj] at a5 ⊢
  refine ⟨a1, a2, rfl, fun q => ?_, fun q => ?_⟩
  · simp only [Image.set, and_true]
    by_cases hq : q = r
    · subst hq
      simp only [if_true]
      rcases a5 q with h0 | ⟨h1, h2⟩
      · rw [a4 q, h0, add_zero, add_zero]
      · rw [if_pos rfl] at h1 h2
        have := neg_abs_le delta
        have := hb q
        rw [if_neg (by linarith), if_neg (by linarith), a4 q]
        ring
    · rw [if_neg hq, if_neg hq]
      exact a4 q
  · simp only [Image.set, and_true]
    rcases a5 q with h0 | ⟨h1, h2⟩
    · exact Or.inl h0
    · right
      by_cases hq : q = r
      · subst hq
        rw [if_pos rfl] at h1 h2
        have := neg_abs_le delta
        have := hb q
        simp only [if_true]
        rw [if_neg (by linarith), if_neg (by linarith)]
        constructor <;> linarith
      · rw [if_neg hq, if_neg hq]
        rw [if_neg (Ne.symm hq), add_zero] at h1 h2
        exact ⟨h1, h2⟩

theorem writeAll_apart {row0 : ℤ} {c : ℕ} {net mult L : K} {δ : ℕ → K} {s : S} (hL : 0 ≤ L) (rel : List (ℤ × K)) :
    ∀ {img img' out : Image K} (b : ℕ → K), (∀ r, 0 ≤ b r) →
      Apart c L δ (fun r => b r + |net| * |mult| * shareOf rel (r - row0)) (img, s) (img', s) →
      writeAll img row0 c net mult rel = .ok out →
      ∃ out', writeAll img' row0 c net mult rel = .ok out' ∧ Apart c L δ b (out, s) (out', s) := by
  induction rel with
  | nil =>
    intro img img' out b hb hA h
    unfold writeAll at h ⊢
    injection h with h
    subst h
    refine ⟨img', rfl, ?_⟩
    simpa [shareOf] using hA
  | cons x rel ih =>
    intro img img' out b hb hA h
    obtain ⟨off, frac⟩ := x
    unfold writeAll at h ⊢
    obtain ⟨i1, h1, h2⟩ := bind_eq_ok h
    have hs : ∀ r : ℕ, 0 ≤ |net| * |mult| * shareOf rel (r - row0) := fun r =>
      mul_nonneg (mul_nonneg (abs_nonneg _) (abs_nonneg _)) (shareOf_nonneg _ _)
    obtain ⟨i2, g1, g2⟩ := writeBack_apart (s := s) (b := fun r => b r + |net| * |mult| * shareOf rel (r - row0)) hL
      (fun r => add_nonneg (hb r) (hs r)) (by
        have e : (fun r : ℕ => b r + |net| * |mult| * shareOf ((off, frac) :: rel) (r - row0)) =
            fun r : ℕ => b r + |net| * |mult| * shareOf rel (r - row0) + if row0 + off = r then |net * frac * mult| else 0 := by
          funext r
          unfold shareOf
          rw [List.map_cons, List.sum_cons]
          have : row0 + off = r ↔ off = r - row0 := by constructor <;> intro <;> omega
          simp only [this]
          split
          · rw [abs_mul, abs_mul]; ring
          · ring
        rw [e] at hA
        exact hA) h1
    obtain ⟨o, g3, g4⟩ := ih b hb g2 h2
    exact ⟨o, by rw [g1]; exact g3, g4⟩

theorem Apart.mono {c : ℕ} {L : K} {δ b b' : ℕ → K} {st st' : Image K × S} (h : Apart c L δ b st st')
    (hb : ∀ r, b' r ≤ b r) : Apart c L δ b' st st' :=
  ⟨h.nr, h.nc, h.traps, h.pixels, fun r => (h.bright r).imp_right fun q =>
    ⟨by have := hb r; linarith [q.1], by have := hb r; linarith [q.2]⟩⟩

theorem phaseBody_apart {A : TrapSys K S} {B : ℕ → K} {L : K} (hL : 0 ≤ L)
    (hA : ∀ s ph n dw o, A.react s ph n dw = .ok o →
      |o.1| ≤ B ph ∧ (L ≤ n → ∀ n', L ≤ n' → A.react s ph n' dw = .ok o)) {cfg : ClockCfg K} {c j : ℕ} {mult : K}
    {step phase : ℕ} {δ b : ℕ → K} (hb : ∀ r, 0 ≤ b r) {st st' out : Image K × S}
    (hAp : Apart c L δ (fun r => b r + |mult| * (B phase *
      shareAt cfg step phase ((r : ℤ) - (cfg.rowWindow.getD j 0 : ℕ)))) st st')
    (hB : 0 ≤ B phase) (h : phaseBody A cfg c j mult step st phase = .ok out) :
    ∃ out', phaseBody A cfg c j mult step st' phase = .ok out' ∧ Apart c L δ b out out' := by
  unfold phaseBody at h ⊢
  split at h
  · rename_i ph row0 dwell e1 e2 e3
    simp only
    obtain ⟨v, h1, h⟩ := bind_eq_ok h
    obtain ⟨⟨net, s⟩, h2, h5⟩ := bind_eq_ok h
    clear h
    obtain ⟨hn, hs⟩ := hA _ _ _ _ _ h2
    obtain ⟨g1, g2, g3, rfl⟩ := read_ok h1
    have hw : cfg.rowWindow.getD j 0 = row0 := by
      rw [List.getD_eq_getElem?_getD, e2]; rfl
    have hsh : ∀ r : ℕ, shareAt cfg step phase ((r : ℤ) - (cfg.rowWindow.getD j 0 : ℕ)) = shareOf ph.release (r - row0) := by
      intro r
      unfold shareAt
      rw [e1, hw]
    have hinc : ∀ r : ℕ, 0 ≤ |mult| * (B phase * shareAt cfg step phase ((r : ℤ) - (cfg.rowWindow.getD j 0 : ℕ))) :=
      fun r => mul_nonneg (abs_nonneg _) (mul_nonneg hB (shareAt_nonneg _ _ _ _))
    have hread : st'.1.read ((row0 : ℤ) + ph.captureFrom) c =
        .ok (st'.1.px ((row0 : ℤ) + ph.captureFrom).toNat c) := by
      unfold Image.read
      rw [if_pos ⟨g1, by rw [hAp.nr]; exact g2, by rw [hAp.nc]; exact g3⟩]
    rw [hread, bind_ok]
    have hre : A.react st'.2 phase (st'.1.px ((row0 : ℤ) + ph.captureFrom).toNat c * if ph.isHigh then 1 else 0) dwell =
        .ok (net, s) := by
      rw [hAp.traps]
      rcases hAp.bright ((row0 : ℤ) + ph.captureFrom).toNat with h0 | ⟨q1, q2⟩
      · rw [hAp.pixels, h0, add_zero]; exact h2
      · by_cases hh : ph.isHigh = true
        · rw [if_pos hh, mul_one] at h2 hs ⊢
          have := hb ((row0 : ℤ) + ph.captureFrom).toNat
          have := hinc ((row0 : ℤ) + ph.captureFrom).toNat
          exact hs (by linarith) _ (by linarith)
        · rw [if_neg hh, mul_zero] at h2 ⊢
          exact h2
    rw [hre, bind_ok]
    simp only at h5 ⊢
    by_cases hz : mult = 0
    · rw [if_pos hz] at h5 ⊢
      injection h5 with h5
      subst h5
      refine ⟨_, rfl, hAp.nr, hAp.nc, rfl, hAp.pixels, (hAp.mono fun r => ?_).bright⟩
      have := hinc r
      linarith
    · rw [if_neg hz] at h5 ⊢
      obtain ⟨i1, h3, h6⟩ := bind_eq_ok h5
      injection h6 with h6
      subst h6
      have hAp' : Apart c L δ (fun r => b r + |net| * |mult| * shareOf ph.release (r - row0)) (st.1, s) (st'.1, s) := by
        refine ⟨hAp.nr, hAp.nc, rfl, hAp.pixels, (hAp.mono fun r => ?_).bright⟩
        rw [hsh r, mul_comm |net|, mul_assoc]
        have := mul_le_mul_of_nonneg_left (mul_le_mul_of_nonneg_right hn (shareOf_nonneg ph.release ((r : ℤ) - row0)))
          (abs_nonneg mult)
        simp only at this
        linarith
      obtain ⟨i2, w1, w2⟩ := writeAll_apart hL ph.release b hb hAp' h3
      rw [w1]
      exact ⟨_, rfl, w2⟩
  · cases h

/-- The passes over one column. -/
theorem columnBody_apart {A : TrapSys K S} {B : ℕ → K} {L : K} (hL : 0 ≤ L) (hB : ∀ ph, 0 ≤ B ph)
    (hA : ∀ s ph n dw o, A.react s ph n dw = .ok o →
      |o.1| ≤ B ph ∧ (L ≤ n → ∀ n', L ≤ n' → A.react s ph n' dw = .ok o)) {cfg : ClockCfg K} {c : ℕ} {δ : ℕ → K}
    {st st' out : Image K × S}
    (hAp : Apart c L δ (fun r => ((List.range cfg.expr.nr).map fun k => ((monitoredRows cfg k).map fun j =>
        |cfg.expr.e k j| * visit cfg B r j).sum).sum) st st')
    (h : columnBody A cfg st c = .ok out) :
    ∃ out', columnBody A cfg st' c = .ok out' ∧ Apart c L δ (fun _ => 0) out out' := by
  unfold columnBody at h ⊢
  obtain ⟨st1, h1, h⟩ := bind_eq_ok h
  injection h with h
  have hv : ∀ r j, 0 ≤ visit cfg B r j := fun r j => visit_nonneg hB r j
  have hrow : ∀ (k : ℕ) r, 0 ≤ ((monitoredRows cfg k).map fun j => |cfg.expr.e k j| * visit cfg B r j).sum := by
    intro k r
    apply List.sum_nonneg
    intro x hx
    obtain ⟨j, -, rfl⟩ := List.mem_map.1 hx
    exact mul_nonneg (abs_nonneg _) (hv r j)
  obtain ⟨st2, g1, g2⟩ := foldlM_apart (fun b s s' => Apart c L δ b s s') (expressBody A cfg c)
    (fun k r => ((monitoredRows cfg k).map fun j => |cfg.expr.e k j| * visit cfg B r j).sum) _ (fun k _ r => hrow k r) (by
      intro k _ b hb s s' t hs ht
      unfold expressBody at ht ⊢
      refine foldlM_apart (fun b s s' => Apart c L δ b s s') _
        (fun j r => |cfg.expr.e k j| * visit cfg B r j) _ (fun j _ r => mul_nonneg (abs_nonneg _) (hv r j)) ?_ b hb
        (s.1, A.restore s.2) (s'.1, A.restore s'.2) t
        ⟨hs.nr, hs.nc, by rw [hs.traps], hs.pixels, hs.bright⟩ ht
      intro j _ b hb s s' t hs ht
      unfold rowBody at ht ⊢
      obtain ⟨s1, q1, q2⟩ := bind_eq_ok ht
      injection q2 with q2
      have hinc : ∀ step phase (r : ℕ), 0 ≤ |cfg.expr.e k j| *
          (B phase * shareAt cfg step phase ((r : ℤ) - (cfg.rowWindow.getD j 0 : ℕ))) := fun step phase r =>
        mul_nonneg (abs_nonneg _) (mul_nonneg (hB phase) (shareAt_nonneg _ _ _ _))
      obtain ⟨s2, q3, q4⟩ := foldlM_apart (fun b s s' => Apart c L δ b s s') (stepBody A cfg c j (cfg.expr.e k j))
        (fun step r => (cfg.phases.map fun phase => |cfg.expr.e k j| *
          (B phase * shareAt cfg step phase ((r : ℤ) - (cfg.rowWindow.getD j 0 : ℕ)))).sum) cfg.steps
        (fun step _ r => List.sum_nonneg fun x hx => by
          obtain ⟨phase, -, rfl⟩ := List.mem_map.1 hx
          exact hinc step phase r) (by
          intro step _ b hb s s' t hs ht
          unfold stepBody at ht ⊢
          refine foldlM_apart (fun b s s' => Apart c L δ b s s') _ (fun phase r => |cfg.expr.e k j| *
            (B phase * shareAt cfg step phase ((r : ℤ) - (cfg.rowWindow.getD j 0 : ℕ)))) cfg.phases
            (fun phase _ r => hinc step phase r) ?_ b hb s s' t hs ht
          intro phase _ b hb s s' t hs ht
          exact phaseBody_apart hL hA hb hs (hB phase) ht) b hb s s' s1 (by
          refine hs.mono fun r => le_of_eq ?_
          unfold visit
          rw [← sum_map_mul_left']
          congr 2
          refine List.map_congr_left fun step _ => ?_
          rw [sum_map_mul_left']) q1
      rw [q3, bind_ok]
      refine ⟨_, rfl, ?_⟩
      rw [← q2]
      split
      · exact ⟨q4.nr, q4.nc, by rw [q4.traps], q4.pixels, q4.bright⟩
      · exact q4) (fun _ => 0) (fun _ => le_rfl) st st' st1 (by simpa only [zero_add] using hAp) h1
  rw [g1, bind_ok]
  refine ⟨_, rfl, ?_⟩
  rw [← h]
  exact ⟨g2.nr, g2.nc, by rw [g2.traps], g2.pixels, g2.bright⟩

end apart

end Arctic
