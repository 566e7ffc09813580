import Verif.Lemmas.Saturation

/-!
# A cloud that fills the pixel leaves nothing of the past

After a cloud that fills the pixel and has electrons for every trap, instant-capture traps are all full, whatever they
were before, and the watermarks say so in one way only.
-/

set_option linter.unusedSectionVars false
set_option linter.unusedVariables false

namespace Arctic
open Finset

variable {K : Type} [Field K] [LinearOrder K] [IsStrictOrderedRing K] {s : ℕ}

/-! ### one transfer -/

theorem min?_const (l : List (Fin s)) (hl : l ≠ []) (k : ℕ) : ((l.map fun _ => k).min?).getD 0 = k := by
  induction l with
  | nil => exact absurd rfl hl
  | cons a l ih =>
    rw [List.map_cons, List.min?_cons]
    cases l with
    | nil => rfl
    | cons b l =>
      have := ih (by simp)
      cases hm : ((b :: l).map fun _ => k).min? with
      | none => rw [List.min?_eq_none_iff] at hm; simp at hm
      | some x =>
        rw [hm, Option.getD_some] at this
        subst this
        simp

theorem indexNotFilled_full (hs : 0 < s) (act : WM K s) (z : ℕ) (hf : ∀ r ∈ act, r.fill = fun _ => 1) :
    indexNotFilled 1 (act ++ Z (z + 1)) = act.length := by
  unfold indexNotFilled
  have : ∀ i : Fin s, argmaxTrue ((act ++ Z (z + 1) : WM K s).map fun r : Row K s => decide (r.fill i ≠ 1)) =
      act.length := by
    intro i
    rw [List.map_append, argmaxTrue_append, List.length_map]
    · intro b hb
      obtain ⟨r, hr, rfl⟩ := List.mem_map.1 hb
      rw [hf r hr]
      simp
    · rw [Z_succ]
      simp [zeroRow]
  rw [List.map_congr_left fun i _ => this i]
  refine min?_const _ (fun h => ?_) _
  have := congrArg List.length h
  rw [List.length_finRange, List.length_nil] at this
  omega

theorem collapse_full (hs : 0 < s) (act : WM K s) (z : ℕ) (hne : act ≠ []) (hf : ∀ r ∈ act, r.fill = fun _ => 1) :
    collapse 1 (act ++ Z (z + 1)) = ⟨volSum act, fun _ => 1⟩ :: Z (act.length + z) := by
  unfold collapse
  simp only [indexNotFilled_full hs act z hf]
  split
  · rename_i h
    cases act with
    | nil => exact absurd rfl hne
    | cons r l =>
      cases l with
      | nil =>
        obtain ⟨v, x⟩ := r
        have := hf ⟨v, x⟩ (by simp)
        simp only at this
        subst this
        simp [volSum, Nat.add_comm]
      | cons b l => simp at h
  · rename_i h
    unfold collapseRows volumeFilled
    rw [List.drop_left', List.take_left'] <;> try rfl
    have e : List.replicate act.length (zeroRow K s) ++ Z (z + 1) = List.replicate (act.length + z + 1) (zeroRow K s) := by
      unfold Z
      rw [List.replicate_append_replicate, Nat.add_assoc]
    rw [e, List.rotate_replicate, List.replicate_succ, List.set_cons_zero]
    rfl

theorem cutAt_snd_nil (act : WM K s) (hp : Pos act) (c : K) (hc : 0 < c) (h : volSum act ≤ c) : (cutAt c act).2 = [] := by
  induction act generalizing c with
  | nil => rfl
  | cons r rs ih =>
    have hrs : Pos rs := fun x hx => hp x (List.mem_cons_of_mem _ hx)
    have h0 := hrs.sum_nonneg
    have hr := hp r List.mem_cons_self
    rw [volSum_cons] at h
    unfold cutAt
    rw [if_neg (by linarith)]
    split
    · rename_i he
      cases rs with
      | nil => rfl
      | cons b l =>
        exfalso
        have := hrs.sum_pos (by simp)
        linarith
    · rename_i he
      exact ih hrs _ (lt_of_le_of_ne (by linarith) (Ne.symm (sub_ne_zero.2 he))) (by linarith)

/-- The array of full traps. -/
def Mgr.full (m : Mgr K) : Mgr K := { m with wm := ⟨1, fun _ => 1⟩ :: Z (m.wm.length - 1) }

/-- At least one species, captured at once. -/
def Mgr.Plain (m : Mgr K) : Prop := 0 < m.s ∧ ∃ p, m.kind = .instant p

theorem finishCapture_full (hs : 0 < s) (dens p : Fin s → K) (n n0 : K) (act init : WM K s) (z : ℕ) (hne : act ≠ [])
    (hv : volSum act = 1) (hf : ∀ r ∈ act, r.fill = fun _ => 1) (hn : 0 < n) (hn0 : ∑ j, dens j - n0 ≤ n) {o : K × WM K s}
    (h : finishCapture 1 (instantOps dens p).trapped (instantOps dens p).tweak n n0 (act ++ Z (z + 1)) init = .ok o) :
    o.2 = ⟨1, fun _ => 1⟩ :: Z (act.length + z) := by
  have e : (collapseCopy 1 (act ++ Z (z + 1)) init).1 = (⟨1, fun _ => 1⟩ : Row K s) :: Z (act.length + z) := by
    rw [collapseCopy_fst, collapse_full hs act z hne hf, hv]
  have et : (instantOps dens p).trapped (((⟨1, fun _ => 1⟩ : Row K s)) :: Z (act.length + z)) = ∑ j, dens j := by
    change cyNTrapped _ _ = _
    rw [cyNTrapped_eq, wsum_cons, wsum_Z, add_zero, one_mul]
    unfold eDens
    simp
  unfold finishCapture at h
  simp only [e, et] at h
  split at h
  · injection h with h
    subst h
    rfl
  · rename_i hd
    rw [if_neg] at h
    · injection h with h
      subst h
      simp only
      obtain ⟨y, hy⟩ : ∃ y, act.length + z = y + 1 := ⟨act.length + z - 1, by
        have := List.length_pos_of_ne_nil hne
        omega⟩
      rw [hy]
      have := collapse_full hs [(⟨1, fun _ => 1⟩ : Row K s)] y (by simp) (by simp)
      rw [List.singleton_append] at this
      rw [this]
      simp [volSum, Nat.add_comm]
    · rintro ⟨h1, h2⟩
      have hp : 0 < ∑ j, dens j - n0 := by
        by_contra hc
        exact absurd h1 (not_lt.2 (div_nonpos_of_nonneg_of_nonpos hn.le (not_lt.1 hc)))
      rw [div_lt_one hp] at h2
      exact absurd hn0 (not_le.2 h2)

theorem icCapture_full (hs : 0 < s) (dens p : Fin s → K) (hd : ∀ j, 0 ≤ dens j) (f : K → K) (n : K) (act : WM K s)
    (z : ℕ) (hp : Pos act) (hv : volSum act ≤ 1) (hF : ∀ r ∈ act, Frac r.fill) (hf : f n = 1) (hn : 0 < n)
    (hn0 : ∑ j, dens j ≤ n) {o : K × WM K s} (h : icCapture (instantOps dens p) f n (act ++ Z (z + 2)) = .ok o) :
    o.2 = ⟨1, fun _ => 1⟩ :: Z (act.length + z + 1) := by
  obtain ⟨z', h1, h2⟩ := icCapture_cut (instantOps dens p) (eDens dens) (instantLaw dens p hd) f n act z hp hn
    (by rw [hf]; exact one_pos)
  rw [hf] at h1 h2
  have hcut := cutAt_snd_nil act hp 1 one_pos hv
  rw [hcut, List.length_nil] at h1
  rw [hcut, List.append_nil, List.append_nil] at h2
  rw [h2] at h
  have hvol := cutAt_vol 1 act
  have hlen : ((cutAt 1 act).1.map (fillRow (1 : K))).length = (cutAt 1 act).1.length := List.length_map _
  have := finishCapture_full hs dens p n (wsum (eDens dens) act) ((cutAt 1 act).1.map (fillRow 1))
    ((cutAt 1 act).1 ++ Z (z' + 1)) z' (fun hc => by
      rw [List.map_eq_nil_iff] at hc
      rw [hc, volSum_nil] at hvol
      exact zero_ne_one hvol) ((volSum_eq_of_vols (vols_mapRow _ _)).trans hvol) (fun r hr => by
      obtain ⟨x, -, rfl⟩ := List.mem_map.1 hr
      rfl) hn (by
      have : 0 ≤ wsum (eDens dens) act := by
        unfold wsum
        apply List.sum_nonneg
        intro x hx
        obtain ⟨r, hr, rfl⟩ := List.mem_map.1 hx
        exact mul_nonneg (hp r hr).le (Finset.sum_nonneg fun j _ => mul_nonneg (hF r hr j).1 (hd j))
      linarith) h
  rw [this, hlen]
  congr 2

theorem MgrOk.step_full {T : K → Prop} {M k : ℕ} {m : Mgr K} (h : MgrOk T M k m) (hm : m.Plain) (hk : k < M) {f : K → K}
    {L : K} (hL : 0 < L) (hfull : ∀ n, L ≤ n → f n = 1) (htr : m.traps ≤ L) (t : K) (ht : T t)
    (ht0 : 0 ≤ t) {n : K} (hn : L ≤ n) {o : K × Mgr K} (ho : m.step n t f = .ok o) : o.2 = m.full := by
  obtain ⟨r1, -, -⟩ := h.releases hk t ht ht0
  obtain ⟨hd, hkind, i, hik, -, hst⟩ := h
  obtain ⟨s, dens, kind, wm⟩ := m
  obtain ⟨hs, p, hp⟩ := hm
  simp only at hs p hp
  subst hp
  change InstState (s := s) (1 + M) i wm at hst
  change ∀ j : Fin s, 0 ≤ dens j at hd
  change ∑ j : Fin s, dens j ≤ L at htr
  change 0 ≤ (icRelease (instantOps dens (p t)) wm).1 at r1
  rw [step_instant] at ho
  cases hc : icStep (instantOps dens (p t)) f n wm with
  | error e => rw [hc] at ho; cases ho
  | ok q =>
    rw [hc] at ho
    injection ho with ho
    subst ho
    suffices hq : q.2 = (⟨1, fun _ => 1⟩ : Row K s) :: Z (wm.length - 1) by
      unfold Mgr.full
      simp only [hq]
    unfold icStep at hc
    obtain ⟨hl, ⟨act, z, rfl, hp, hv, hF, hlen⟩ | ⟨h1, z, rfl⟩⟩ := hst
    · obtain ⟨z, rfl⟩ : ∃ q, z = q + 2 := ⟨z - 2, by rw [List.length_append, Z_length] at hl; omega⟩
      have hrel := icRelease_eq (instantOps dens (p t)) act (z + 1) hp.ne
      rw [show z + 1 + 1 = z + 2 from rfl] at hrel
      set R := (icRelease (instantOps dens (p t)) (act ++ Z (z + 2))).1 with hR
      have e : icRelease (instantOps dens (p t)) (act ++ Z (z + 2)) =
          (R, act.map (mapRow (instantOps dens (p t)).release) ++ Z (z + 2)) := by
        rw [hR, hrel]
      rw [e] at hc
      simp only at hc
      obtain ⟨⟨cap, w⟩, c1, c2⟩ := bind_eq_ok hc
      injection c2 with c2
      subst c2
      have := icCapture_full hs dens (p t) hd f (n + R) _ z (pos_of_vols (vols_mapRow _ act).symm hp)
        (by rw [volSum_eq_of_vols (vols_mapRow _ act)]; exact hv) (fun r hr => by
          obtain ⟨x, hx, rfl⟩ := List.mem_map.1 hr
          intro j
          have a := hF x hx j
          have b := hkind t ht j
          exact ⟨mul_nonneg a.1 b.1, mul_le_one₀ a.2 b.1 b.2⟩) (hfull _ (by linarith)) (by linarith) (by linarith) c1
      simp only at this ⊢
      rw [this, List.length_map]
      congr 2
      rw [List.length_append, Z_length]
      omega
    · have hrel := icRelease_stale (instantOps dens (p t)) (⟨0, fun _ => 1⟩ : Row K s) z rfl
      rw [hrel] at hc
      simp only [add_zero] at hc
      obtain ⟨⟨cap, w⟩, c1, c2⟩ := bind_eq_ok hc
      injection c2 with c2
      subst c2
      unfold icCapture at c1
      simp only at c1
      rw [if_pos ⟨maxIdx_stale _ z rfl, by linarith⟩] at c1
      have e : ((⟨0, fun _ => 1⟩ : Row K s) :: Z z).modify 0 (fun _ => ⟨1, fun _ => 1⟩) =
          (⟨1, fun _ => 1⟩ : Row K s) :: Z z := rfl
      have et : (instantOps dens (p t)).trapped (((⟨1, fun _ => 1⟩ : Row K s)) :: Z z) = ∑ j, dens j := by
        change cyNTrapped _ _ = _
        rw [cyNTrapped_eq, wsum_cons, wsum_Z, add_zero, one_mul]
        unfold eDens
        simp
      have e1 : (instantOps dens (p t)).filled = 1 := rfl
      unfold icFirstCapture at c1
      simp only [hfull n hn, e1, e, et] at c1
      simp only [List.length_cons, Z_length, Nat.add_sub_cancel]
      split at c1
      · injection c1 with c1
        injection c1 with _ c1
        exact c1.symm
      · rename_i hz
        rw [if_neg] at c1
        · injection c1 with c1
          injection c1 with _ c1
          exact c1.symm
        · have h0 : 0 ≤ ∑ j, dens j := Finset.sum_nonneg fun j _ => hd j
          rw [not_lt, le_div_iff₀ (lt_of_le_of_ne h0 (Ne.symm hz)), one_mul]
          linarith

theorem groupsStep_full {M k : ℕ} (hk : k < M) {f : K → K} {L : K} (hL : 0 < L)
    (hfull : ∀ n, L ≤ n → f n = 1) (t : K) (ht : 0 < t) {n : K} (hn : L ≤ n) (ms : List (Mgr K))
    (hm : ∀ m ∈ ms, MgrOk (0 < ·) M k m ∧ m.traps ≤ L ∧ m.Plain) {o : K × List (Mgr K)}
    (ho : groupsStep n t f ms = .ok o) : o.2 = ms.map Mgr.full := by
  induction ms generalizing o with
  | nil =>
    unfold groupsStep at ho
    injection ho with ho
    subst ho
    rfl
  | cons m ms ih =>
    unfold groupsStep at ho
    obtain ⟨q, h1, ho⟩ := bind_eq_ok ho
    obtain ⟨q', h2, ho⟩ := bind_eq_ok ho
    injection ho with ho
    subst ho
    obtain ⟨a, b, c⟩ := hm m List.mem_cons_self
    simp only [List.map_cons]
    rw [a.step_full c hk hL hfull b t ht ht.le hn h1, ih (fun x hx => hm x (List.mem_cons_of_mem _ hx)) h2]

theorem full_empty (ms : List (Mgr K)) : (ms.map Mgr.empty).map Mgr.full = ms.map Mgr.full := by
  rw [List.map_map]
  refine List.map_congr_left fun m _ => ?_
  unfold Mgr.full Mgr.empty
  simp

/-! ### a system that checks its reactions -/

open Classical in
/-- The traps of the code, which fail if more than `B` is released or captured, or if `L` or more electrons do not leave
them in the state `F`. -/
noncomputable def fullSys (fill : ℕ → K → K) (B : ℕ → K) (L : K) (F : List (List (Mgr K))) : TrapSys K (ATM K) where
  restore := (atmSys fill).restore
  save := (atmSys fill).save
  emptyAll := (atmSys fill).emptyAll
  react s ph n dw := do
    let o ← (atmSys fill).react s ph n dw
    if |o.1| ≤ B ph ∧ (L ≤ n → o.2.data = F) then .ok o else .error .exception

theorem fullSys_ok {fill : ℕ → K → K} {B : ℕ → K} {L : K} {F : List (List (Mgr K))} {s : ATM K} {ph : ℕ} {n dw : K}
    {o : K × ATM K} (h : (fullSys fill B L F).react s ph n dw = .ok o) :
    s.react ph n dw (fill ph) = .ok o ∧ |o.1| ≤ B ph ∧ (L ≤ n → o.2.data = F) := by
  unfold fullSys at h
  simp only at h
  obtain ⟨o', h1, h⟩ := bind_eq_ok h
  split at h
  · rename_i hb
    injection h with h
    subst h
    exact ⟨h1, hb⟩
  · cases h

theorem fullSys_lim (fill : ℕ → K → K) (B : ℕ → K) (L : K) (F : List (List (Mgr K))) (s : ATM K) (ph : ℕ) (n dw : K) :
    Lim ((atmSys fill).react s ph n dw) ((fullSys fill B L F).react s ph n dw) := by
  unfold fullSys
  simp only
  cases (atmSys fill).react s ph n dw with
  | error e => exact Lim.refl _
  | ok o =>
    rw [bind_ok]
    split
    · exact Lim.refl _
    · exact Or.inr rfl

theorem columnBody_full_lim (fill : ℕ → K → K) (B : ℕ → K) (L : K) (F : List (List (Mgr K))) (cfg : ClockCfg K) (c : ℕ)
    (st : Image K × ATM K) : Lim (columnBody (atmSys fill) cfg st c) (columnBody (fullSys fill B L F) cfg st c) := by
  unfold columnBody
  refine Lim.bind (foldlM_lim _ (fun st k => ?_) st) fun st => Lim.refl _
  unfold expressBody
  refine foldlM_lim _ (fun st j => ?_) _
  unfold rowBody
  refine Lim.bind (foldlM_lim _ (fun st step => ?_) _) fun st => Lim.refl _
  unfold stepBody
  refine foldlM_lim _ (fun st phase => ?_) _
  unfold phaseBody
  split
  · exact Lim.bind (Lim.refl _) fun v => Lim.bind (fullSys_lim _ _ _ _ _ _ _ _) fun o => Lim.refl _
  · exact Lim.refl _

theorem data_of_emptied {d : List (List (Mgr K))} {ms0 : List (Mgr K)} (h : emptied d = [ms0]) :
    ∃ ms, d = [ms] ∧ ms.map Mgr.empty = ms0 := by
  unfold emptied at h
  cases d with
  | nil => cases h
  | cons ms d =>
    rw [List.map_cons] at h
    injection h with h1 h2
    rw [List.map_eq_nil_iff] at h2
    subst h2
    exact ⟨ms, rfl, h1⟩

open Classical in
theorem fullState_inv {tr : Prop} {ms0 : List (Mgr K)} {cfg : ClockCfg K} {fill : ℕ → K → K} {D R C N c : ℕ}
    {L : K} (hcfg : RunCfg cfg fill D R) (hc : c < C) (hL : 0 < L) (hph : cfg.phases = [0])
    (hfull : ∀ n, L ≤ n → fill 0 n = 1) (htr : phaseTraps [ms0] 0 ≤ L) (hplain : ∀ m ∈ ms0, m.Plain) :
    BudgetInv (fullSys fill (phaseTraps [ms0]) L [ms0.map Mgr.full]) cfg (fun e => tr ∧ e = .typeError) N c
      (TrapState tr [ms0] (N * cfg.steps.length) D R C) where
  phase k hk j hj step hs phase hp u b st hst hu := by
    obtain ⟨i, s⟩ := st
    obtain ⟨⟨h1, h2, h3, h4⟩, h5, h6⟩ := hst
    simp only at h1 h2 h3 h4 h5 h6
    obtain ⟨ph, dw, l1, l2, l3⟩ := hcfg.look step hs phase hp
    obtain ⟨w, l4⟩ := hcfg.rows k hk j hj
    obtain ⟨r1, r2⟩ := hcfg.range step phase ph l1 w (List.mem_of_getElem? l4)
    obtain rfl : phase = 0 := by rw [hph] at hp; simpa using hp
    unfold phaseBody
    rw [l1, l2, l4]
    simp only
    unfold Image.read
    rw [if_pos ⟨r1.1, by rw [h1]; exact r1.2, by rw [h2]; exact hc⟩]
    refine Sat.bind (Q := fun _ => True) trivial fun v _ => ?_
    have hS : Sat (fun e => tr ∧ e = .typeError)
        (fun o : K × ATM K => (DataOk tr (N * cfg.steps.length) D (bump u 0) o.2.data ∧ o.2.eff = s.eff) ∧
          emptied o.2.data = [ms0])
        ((fullSys fill (phaseTraps [ms0]) L [ms0.map Mgr.full]).react s 0 (v * if ph.isHigh then 1 else 0) dw) := by
      change Sat _ _ (s.react 0 (v * if ph.isHigh then 1 else 0) dw (fill 0) >>= _)
      have hr := h3.react (f := fill 0) (hcfg.phases 0 hp) (hcfg.fillModel 0 hp) hu
        (v * if ph.isHigh then 1 else 0) dw l3
      cases he : s.react 0 (v * if ph.isHigh then 1 else 0) dw (fill 0) with
      | error e => exact hr.err he
      | ok o =>
        have g := hr.ok he
        obtain ⟨ms, ms', q1, q2, q3⟩ := ATM.react_data he
        have hpt : phaseTraps [ms0] 0 = phaseTraps s.data 0 := by rw [← h5, phaseTraps_emptied]
        have hb : |o.1| ≤ phaseTraps [ms0] 0 := by
          rw [hpt, phaseTraps, q1]
          exact groupsStep_net hu (hcfg.fillModel 0 hp) _ dw l3 ms ms' o.1
            (fun m hm => (h3.2 0 ms q1 m hm).1) q2
        have hsat : L ≤ (v * if ph.isHigh then 1 else 0) → o.2.data = [ms0.map Mgr.full] := by
          intro hn
          obtain ⟨ms1, e1, e2⟩ := data_of_emptied h5
          obtain rfl : ms1 = ms := by rw [e1] at q1; simpa using q1
          have := groupsStep_full hu hL hfull dw l3 hn ms1 (fun m hm =>
            ⟨(h3.2 0 ms1 q1 m hm).1, (phaseTraps_mem q1 (fun m hm =>
              Finset.sum_nonneg fun j _ => (h3.2 0 ms1 q1 m hm).1.dens j) m hm).trans (hpt ▸ htr),
              hplain m.empty (by rw [← e2]; exact List.mem_map_of_mem hm)⟩) q2
          simp only at this
          rw [q3, e1, this, ← e2, full_empty]
          rfl
        change Sat _ _ (if _ then _ else _)
        rw [if_pos ⟨hb, hsat⟩]
        exact ⟨g, by rw [(ATM.react_emptied he).1]; exact h5⟩
    refine Sat.bind hS ?_
    rintro ⟨net, s'⟩ ⟨⟨g1, g2⟩, g3⟩
    simp only at g1 g2 g3 ⊢
    split
    · exact ⟨⟨h1, h2, g1, by simp only [g2]; exact h4⟩, g3, by simp only [g2]; exact h6⟩
    · obtain ⟨i', q1, q2, q3⟩ := writeAll_inRange (img := i) (row0 := w) (c := c) (net := net)
        (mult := cfg.expr.e k j) (rel := ph.release) (by rw [h2]; exact hc) (fun o ho => by rw [h1]; exact r2 o ho)
      rw [q1]
      exact ⟨⟨q2.trans h1, q3.trans h2, g1, by simp only [g2]; exact h4⟩, g3, by simp only [g2]; exact h6⟩
  save _ u b v st h hv := ⟨⟨h.1.1, h.1.2.1, h.1.2.2.1, by
    change DataOk _ _ _ _ st.2.save.eff
    rw [ATM.eff_save]; exact h.1.2.2.1.mono hv⟩, h.2.1, by
    change emptied st.2.save.eff = _
    rw [ATM.eff_save]; exact h.2.1⟩
  restore u b st h := ⟨⟨h.1.1, h.1.2.1, h.1.2.2.2, by
    change DataOk _ _ _ _ st.2.restore.eff
    rw [ATM.eff_restore]; exact h.1.2.2.2⟩, h.2.2, by
    change emptied st.2.restore.eff = _
    rw [ATM.eff_restore]; exact h.2.2⟩
  mono u u' b st h hu := ⟨⟨h.1.1, h.1.2.1, h.1.2.2.1.mono hu, h.1.2.2.2⟩, h.2⟩

/-- The passes over one column give the same with the checks. -/
theorem columnBody_fullSys {tr : Prop} {cfg : ClockCfg K} {fill : ℕ → K → K} {D R C N c : ℕ} {pos : ℕ → ℕ → ℕ}
    (hcfg : RunCfg cfg fill D R) (hsch : Schedule cfg N pos) (hc : c < C) (ms0 : List (Mgr K)) {L : K} (hL : 0 < L)
    (hph : cfg.phases = [0]) (hfull : ∀ n, L ≤ n → fill 0 n = 1) (htr : phaseTraps [ms0] 0 ≤ L)
    (hplain : ∀ m ∈ ms0, m.Plain)
    (st : Image K × ATM K) (hst : TrapState tr [ms0] (N * cfg.steps.length) D R C (fun _ => 0) 0 st)
    {out : Image K × ATM K} (h : columnBody (atmSys fill) cfg st c = .ok out) :
    columnBody (fullSys fill (phaseTraps [ms0]) L [ms0.map Mgr.full]) cfg st c = .ok out := by
  have hb := (fullState_inv (tr := tr) (N := N) hcfg hc hL hph hfull htr hplain).passes hcfg.nodup hsch st _ hst
  rcases columnBody_full_lim fill (phaseTraps [ms0]) L [ms0.map Mgr.full] cfg c st with he | he
  · rw [he, h]
  · exfalso
    unfold columnBody at he
    cases hp : (List.range cfg.expr.nr).foldlM
        (expressBody (fullSys fill (phaseTraps [ms0]) L [ms0.map Mgr.full]) cfg c) st with
    | error e =>
      rw [hp] at he
      obtain ⟨-, rfl⟩ := hb.err hp
      cases he
    | ok o => rw [hp] at he; cases he

/-! ### two runs -/

/-- A readout with one step and one phase, which stores no states. -/
structure OneStep (cfg : ClockCfg K) (dw : K) : Prop where
  steps : cfg.steps = [0]
  phases : cfg.phases = [0]
  seq : cfg.clockSeq = [[⟨true, 0, [(0, 1)]⟩]]
  dwell : cfg.dwell = [dw]
  save : ∀ k j, cfg.saveMat.e k j = false

theorem rowBody_one {S : Type} {A : TrapSys K S} {cfg : ClockCfg K} {dw : K} (hc : OneStep cfg dw) {c k j : ℕ}
    {st out : Image K × S} (h : rowBody A cfg c k st j = .ok out) :
    ∃ w, cfg.rowWindow[j]? = some w ∧ ∃ net, A.react st.2 0 (st.1.px w c) dw = .ok (net, out.2) ∧
      out.1.nr = st.1.nr ∧ out.1.nc = st.1.nc ∧ (∀ r, r ≠ w → out.1.px r c = st.1.px r c) ∧
      out.1.px w c = if cfg.expr.e k j = 0 then st.1.px w c else
        if st.1.px w c + net * cfg.expr.e k j < 0 then 0 else st.1.px w c + net * cfg.expr.e k j := by
  unfold rowBody at h
  rw [hc.steps] at h
  obtain ⟨st1, h1, h⟩ := bind_eq_ok h
  rw [hc.save, if_neg (by simp)] at h
  injection h with h
  subst h
  rw [foldlM_cons] at h1
  obtain ⟨st2, h2, h1⟩ := bind_eq_ok h1
  rw [foldlM_nil] at h1
  injection h1 with h1
  subst h1
  unfold stepBody at h2
  rw [hc.phases, foldlM_cons] at h2
  obtain ⟨st3, h3, h2⟩ := bind_eq_ok h2
  rw [foldlM_nil] at h2
  injection h2 with h2
  subst h2
  unfold phaseBody at h3
  rw [hc.seq, hc.dwell] at h3
  simp only [List.getElem?_cons_zero, Option.bind_some] at h3
  cases hw : cfg.rowWindow[j]? with
  | none => rw [hw] at h3; cases h3
  | some w =>
    rw [hw] at h3
    simp only [add_zero, if_true, mul_one] at h3
    obtain ⟨v, g1, h3⟩ := bind_eq_ok h3
    obtain ⟨q1, q2, q3, rfl⟩ := read_ok g1
    rw [Int.toNat_natCast] at h3
    obtain ⟨⟨net, s⟩, g2, g3⟩ := bind_eq_ok h3
    clear h3
    refine ⟨w, rfl, net, ?_⟩
    simp only at g3
    split at g3
    · rename_i hz
      injection g3 with g3
      subst g3
      exact ⟨g2, rfl, rfl, fun _ _ => rfl, by rw [if_pos hz]⟩
    · rename_i hz
      obtain ⟨i1, g4, g5⟩ := bind_eq_ok g3
      injection g5 with g5
      subst g5
      unfold writeAll at g4
      obtain ⟨i2, g6, g7⟩ := bind_eq_ok g4
      unfold writeAll at g7
      injection g7 with g7
      subst g7
      unfold writeBack at g6
      obtain ⟨old, g8, g9⟩ := bind_eq_ok g6
      injection g9 with g9
      obtain ⟨-, -, -, rfl⟩ := read_ok g8
      simp only [add_zero, Int.toNat_natCast, mul_one] at g9
      subst g9
      refine ⟨g2, rfl, rfl, fun r hr => ?_, ?_⟩
      · simp only [Image.set]
        rw [if_neg fun hh => hr hh.1]
      · simp only [Image.set, and_self, if_true]
        rw [if_neg hz]

/-- Two runs that agree on the rows behind row `r0` of column `c`, which is bright in both. -/
structure Shielded (c r0 : ℕ) (L b : K) (st st' : Image K × ATM K) : Prop where
  nr : st'.1.nr = st.1.nr
  nc : st'.1.nc = st.1.nc
  eff : st'.2.eff = st.2.eff
  behind : ∀ r, r0 < r → st'.1.px r c = st.1.px r c
  bright : L + b ≤ st.1.px r0 c
  bright' : L + b ≤ st'.1.px r0 c

theorem ATM.react_eff {a : ATM K} {o : K × ATM K} {ph : ℕ} {n t : K} {f : K → K} (h : a.react ph n t f = .ok o) :
    o.2.eff = a.eff := by
  obtain ⟨h1, h2⟩ := ATM.react_emptied (net := o.1) (a' := o.2) h
  cases hs : a.saved with
  | none => rw [ATM.eff_none hs, ATM.eff_none (h2.trans hs), h1]
  | some d => rw [ATM.eff_some hs, ATM.eff_some (h2.trans hs)]

theorem ATM.react_congr {a a' : ATM K} (h : a'.data = a.data) {o o' : K × ATM K} {ph : ℕ} {n t : K} {f : K → K}
    (h1 : a.react ph n t f = .ok o) (h2 : a'.react ph n t f = .ok o') : o'.1 = o.1 ∧ o'.2.data = o.2.data := by
  obtain ⟨ms, ms', q1, q2, q3⟩ := ATM.react_data (net := o.1) (a' := o.2) h1
  obtain ⟨ms1, ms1', p1, p2, p3⟩ := ATM.react_data (net := o'.1) (a' := o'.2) h2
  rw [h, q1] at p1
  injection p1 with p1
  subst p1
  rw [q2] at p2
  injection p2 with p2
  injection p2 with p4 p5
  rw [q3, p3]
  simp only
  rw [h, p5]
  exact ⟨p4.symm, rfl⟩

section rows
variable {fill : ℕ → K → K} {B : ℕ → K} {L : K} {F : List (List (Mgr K))} {cfg : ClockCfg K} {dw : K} {c k r0 : ℕ}

theorem Shielded.before (hone : OneStep cfg dw) {j w : ℕ} (hw : cfg.rowWindow[j]? = some w) (hlt : w < r0) {b : K}
    {st st' out out' : Image K × ATM K} (hS : Shielded c r0 L b st st')
    (h : rowBody (fullSys fill B L F) cfg c k st j = .ok out)
    (h' : rowBody (fullSys fill B L F) cfg c k st' j = .ok out') : Shielded c r0 L b out out' := by
  obtain ⟨w1, e1, net, a1, a2, a3, a4, -⟩ := rowBody_one hone h
  obtain ⟨w2, e2, net', b1, b2, b3, b4, -⟩ := rowBody_one hone h'
  rw [hw] at e1 e2
  injection e1 with e1
  injection e2 with e2
  subst e1
  subst e2
  refine ⟨by rw [a2, b2, hS.nr], by rw [a3, b3, hS.nc], ?_, fun r hr => ?_, ?_, ?_⟩
  · rw [ATM.react_eff (fullSys_ok a1).1, ATM.react_eff (fullSys_ok b1).1]; exact hS.eff
  · rw [a4 r (by omega), b4 r (by omega)]; exact hS.behind r hr
  · rw [a4 r0 (by omega)]; exact hS.bright
  · rw [b4 r0 (by omega)]; exact hS.bright'

theorem Shielded.at (hone : OneStep cfg dw) {j : ℕ} (hL : 0 ≤ L) (hw : cfg.rowWindow[j]? = some r0) {b : K} (hb : 0 ≤ b)
    {st st' out out' : Image K × ATM K} (hS : Shielded c r0 L (b + |cfg.expr.e k j| * B 0) st st')
    (hB : 0 ≤ B 0)
    (h : rowBody (fullSys fill B L F) cfg c k st j = .ok out)
    (h' : rowBody (fullSys fill B L F) cfg c k st' j = .ok out') :
    Shielded c r0 L b out out' ∧ out'.2.data = out.2.data := by
  obtain ⟨w1, e1, net, a1, a2, a3, a4, a5⟩ := rowBody_one hone h
  obtain ⟨w2, e2, net', b1, b2, b3, b4, b5⟩ := rowBody_one hone h'
  rw [hw] at e1 e2
  injection e1 with e1
  injection e2 with e2
  subst e1
  subst e2
  have key : ∀ (x net : K), L + (b + |cfg.expr.e k j| * B 0) ≤ x → |net| ≤ B 0 →
      L + b ≤ if cfg.expr.e k j = 0 then x else if x + net * cfg.expr.e k j < 0 then 0 else x + net * cfg.expr.e k j := by
    intro x net h1 h2
    have h3 : 0 ≤ |cfg.expr.e k j| * B 0 := mul_nonneg (abs_nonneg _) hB
    have h4 : |net * cfg.expr.e k j| ≤ |cfg.expr.e k j| * B 0 := by
      rw [abs_mul, mul_comm]
      exact mul_le_mul_of_nonneg_left h2 (abs_nonneg _)
    have h5 := (abs_le.1 h4).1
    split
    · linarith
    · rw [if_neg (by linarith)]; linarith
  have h3 : 0 ≤ |cfg.expr.e k j| * B 0 := mul_nonneg (abs_nonneg _) hB
  obtain ⟨f1, f2, f3⟩ := fullSys_ok a1
  obtain ⟨g1, g2, g3⟩ := fullSys_ok b1
  refine ⟨⟨by rw [a2, b2, hS.nr], by rw [a3, b3, hS.nc], ?_, fun r hr => ?_, ?_, ?_⟩, ?_⟩
  · rw [ATM.react_eff f1, ATM.react_eff g1]; exact hS.eff
  · rw [a4 r (by omega), b4 r (by omega)]; exact hS.behind r hr
  · rw [a5]; exact key _ _ hS.bright f2
  · rw [b5]; exact key _ _ hS.bright' g2
  · have q1 := f3 (by have := hS.bright; linarith)
    have q2 := g3 (by have := hS.bright'; linarith)
    simp only at q1 q2
    rw [q1, q2]

theorem Shielded.after (hone : OneStep cfg dw) {j w : ℕ} (hw : cfg.rowWindow[j]? = some w) (hlt : r0 < w) {b : K}
    {st st' out out' : Image K × ATM K} (hS : Shielded c r0 L b st st') (hd : st'.2.data = st.2.data)
    (h : rowBody (fullSys fill B L F) cfg c k st j = .ok out)
    (h' : rowBody (fullSys fill B L F) cfg c k st' j = .ok out') :
    Shielded c r0 L b out out' ∧ out'.2.data = out.2.data := by
  obtain ⟨w1, e1, net, a1, a2, a3, a4, a5⟩ := rowBody_one hone h
  obtain ⟨w2, e2, net', b1, b2, b3, b4, b5⟩ := rowBody_one hone h'
  rw [hw] at e1 e2
  injection e1 with e1
  injection e2 with e2
  subst e1
  subst e2
  rw [hS.behind w hlt] at b1 b5
  obtain ⟨g1, g2⟩ := ATM.react_congr hd (fullSys_ok a1).1 (fullSys_ok b1).1
  simp only at g1 g2
  subst g1
  refine ⟨⟨by rw [a2, b2, hS.nr], by rw [a3, b3, hS.nc], ?_, fun r hr => ?_, ?_, ?_⟩, g2⟩
  · rw [ATM.react_eff (fullSys_ok a1).1, ATM.react_eff (fullSys_ok b1).1]; exact hS.eff
  · by_cases hrw : r = w
    · subst hrw; rw [a5, b5]
    · rw [a4 r hrw, b4 r hrw]; exact hS.behind r hr
  · rw [a4 r0 (by omega)]; exact hS.bright
  · rw [b4 r0 (by omega)]; exact hS.bright'

/-- One pass. -/
theorem Shielded.rows (hone : OneStep cfg dw) {j0 : ℕ} (hL : 0 ≤ L) (hB : 0 ≤ B 0) (hw : cfg.rowWindow[j0]? = some r0)
    (hinc : ∀ j j' w w' : ℕ, cfg.rowWindow[j]? = some w → cfg.rowWindow[j']? = some w' → j < j' → w < w') (l : List ℕ)
    (hl : l.Pairwise (· < ·)) {b : K} (hb : 0 ≤ b) :
    ∀ {st st' out out' : Image K × ATM K}, Shielded c r0 L (b + if j0 ∈ l then |cfg.expr.e k j0| * B 0 else 0) st st' →
    (st'.2.data = st.2.data ∧ (∀ j ∈ l, j0 ≤ j) ∨ j0 ∈ l ∨ ∀ j ∈ l, j < j0) →
    l.foldlM (rowBody (fullSys fill B L F) cfg c k) st = .ok out →
    l.foldlM (rowBody (fullSys fill B L F) cfg c k) st' = .ok out' → Shielded c r0 L b out out' := by
  induction l with
  | nil =>
    intro st st' out out' hS _ h h'
    rw [foldlM_nil] at h h'
    injection h with h
    injection h' with h'
    subst h
    subst h'
    simpa using hS
  | cons a l ih =>
    intro st st' out out' hS hcase h h'
    rw [foldlM_cons] at h h'
    obtain ⟨s1, h1, h2⟩ := bind_eq_ok h
    obtain ⟨s1', h1', h2'⟩ := bind_eq_ok h'
    obtain ⟨hal, hl'⟩ := List.pairwise_cons.1 hl
    obtain ⟨w, hwa, -⟩ := rowBody_one hone h1
    rcases lt_trichotomy a j0 with hlt | rfl | hgt
    · have hmem : (j0 ∈ a :: l) ↔ j0 ∈ l := by
        rw [List.mem_cons]
        exact ⟨fun q => q.resolve_left (by omega), Or.inr⟩
      simp only [hmem] at hS hcase
      refine ih hl' (hS.before hone hwa (hinc a j0 w r0 hwa hw hlt) h1 h1') ?_ h2 h2'
      rcases hcase with ⟨-, q⟩ | q | q
      · have := q a List.mem_cons_self
        omega
      · exact Or.inr (Or.inl q)
      · exact Or.inr (Or.inr fun j hj => q j (List.mem_cons_of_mem _ hj))
    · rw [if_pos List.mem_cons_self] at hS
      obtain ⟨q1, q2⟩ := hS.at hone hL hw hb hB h1 h1'
      have hnot : a ∉ l := fun hm => lt_irrefl a (hal a hm)
      refine ih hl' (by rw [if_neg hnot, add_zero]; exact q1) (Or.inl ⟨q2, fun j hj => (hal j hj).le⟩) h2 h2'
    · have hnot : j0 ∉ a :: l := by
        intro hm
        rcases List.mem_cons.1 hm with q | q
        · omega
        · have := hal j0 q; omega
      have hnot' : j0 ∉ l := fun hm => hnot (List.mem_cons_of_mem _ hm)
      rw [if_neg hnot] at hS
      rcases hcase with ⟨q, -⟩ | q | q
      · obtain ⟨q1, q2⟩ := hS.after hone hwa (hinc j0 a r0 w hw hwa hgt) q h1 h1'
        refine ih hl' (by rw [if_neg hnot']; exact q1) (Or.inl ⟨q2, fun j hj => ?_⟩) h2 h2'
        have := hal j hj
        omega
      · exact absurd q hnot
      · have := q a List.mem_cons_self
        omega

end rows

theorem foldlM_pair {α σ : Type} (P : K → σ → σ → Prop) (f : σ → α → Except Err σ) (inc : α → K) (l : List α)
    (hinc : ∀ a ∈ l, 0 ≤ inc a)
    (h : ∀ a ∈ l, ∀ b, 0 ≤ b → ∀ s s' t t', P (b + inc a) s s' → f s a = .ok t → f s' a = .ok t' → P b t t') :
    ∀ b, 0 ≤ b → ∀ s s' t t', P (b + (l.map inc).sum) s s' → l.foldlM f s = .ok t → l.foldlM f s' = .ok t' → P b t t' := by
  induction l with
  | nil =>
    intro b _ s s' t t' hs h1 h2
    rw [foldlM_nil] at h1 h2
    injection h1 with h1
    injection h2 with h2
    subst h1
    subst h2
    simpa using hs
  | cons a l ih =>
    intro b hb s s' t t' hs h1 h2
    rw [foldlM_cons] at h1 h2
    obtain ⟨s1, g1, g2⟩ := bind_eq_ok h1
    obtain ⟨s2, g3, g4⟩ := bind_eq_ok h2
    have hl : 0 ≤ (l.map inc).sum := List.sum_nonneg fun x hx => by
      obtain ⟨y, hy, rfl⟩ := List.mem_map.1 hx
      exact hinc y (List.mem_cons_of_mem _ hy)
    refine ih (fun a ha => hinc a (List.mem_cons_of_mem _ ha)) (fun a ha => h a (List.mem_cons_of_mem _ ha)) b hb s1 s2 t t'
      (h a List.mem_cons_self (b + (l.map inc).sum) (add_nonneg hb hl) s s' s1 s2 ?_ g1 g3) g2 g4
    rw [List.map_cons, List.sum_cons] at hs
    have e : b + (inc a + (l.map inc).sum) = b + (l.map inc).sum + inc a := by ring
    rw [e] at hs
    exact hs

/-- A pass that goes over rows before and behind row `j0` goes over row `j0`. -/
def Contiguous (cfg : ClockCfg K) (j0 : ℕ) : Prop :=
  ∀ k < cfg.expr.nr, j0 ∈ monitoredRows cfg k ∨ (∀ j ∈ monitoredRows cfg k, j < j0) ∨ ∀ j ∈ monitoredRows cfg k, j0 < j

/-- The passes over one column. -/
theorem columnBody_shielded {fill : ℕ → K → K} {B : ℕ → K} {L : K} {F : List (List (Mgr K))} {cfg : ClockCfg K} {dw : K}
    {c r0 j0 : ℕ} (hone : OneStep cfg dw) (hL : 0 ≤ L) (hB : 0 ≤ B 0) (hw : cfg.rowWindow[j0]? = some r0)
    (hinc : ∀ j j' w w' : ℕ, cfg.rowWindow[j]? = some w → cfg.rowWindow[j']? = some w' → j < j' → w < w')
    (hcont : Contiguous cfg j0) {st st' out out' : Image K × ATM K}
    (hS : Shielded c r0 L (B 0 * ((List.range cfg.expr.nr).map fun k => |cfg.expr.e k j0|).sum) st st')
    (h : columnBody (fullSys fill B L F) cfg st c = .ok out)
    (h' : columnBody (fullSys fill B L F) cfg st' c = .ok out') :
    ∀ r, r0 < r → out'.1.px r c = out.1.px r c := by
  unfold columnBody at h h'
  obtain ⟨s1, h1, h2⟩ := bind_eq_ok h
  obtain ⟨s1', h1', h2'⟩ := bind_eq_ok h'
  injection h2 with h2
  injection h2' with h2'
  subst h2
  subst h2'
  simp only
  have := foldlM_pair (fun b s s' => Shielded c r0 L b s s') (expressBody (fullSys fill B L F) cfg c)
    (fun k => |cfg.expr.e k j0| * B 0) (List.range cfg.expr.nr) (fun k _ => mul_nonneg (abs_nonneg _) hB)
    (fun k hk b hb s s' t t' hP q1 q2 => ?_) 0 le_rfl st st' s1 s1' (by
      rw [zero_add, List.sum_map_mul_right, mul_comm]
      exact hS) h1 h1'
  · exact this.behind
  · unfold expressBody at q1 q2
    refine Shielded.rows hone hL hB hw hinc (monitoredRows cfg k) (List.Pairwise.filter _ List.pairwise_lt_range) hb
      (st := (s.1, (fullSys fill B L F).restore s.2)) (st' := (s'.1, (fullSys fill B L F).restore s'.2)) ?_ ?_ q1 q2
    · have h0 : 0 ≤ |cfg.expr.e k j0| * B 0 := mul_nonneg (abs_nonneg _) hB
      refine ⟨hP.nr, hP.nc, ?_, hP.behind, ?_, ?_⟩
      · change s'.2.restore.eff = s.2.restore.eff
        rw [ATM.eff_restore, ATM.eff_restore]
        exact hP.eff
      · have := hP.bright
        simp only
        split <;> linarith
      · have := hP.bright'
        simp only
        split <;> linarith
    · rcases hcont k (List.mem_range.1 hk) with q | q | q
      · exact Or.inr (Or.inl q)
      · exact Or.inr (Or.inr q)
      · exact Or.inl ⟨hP.eff, fun j hj => (q j hj).le⟩

end Arctic
