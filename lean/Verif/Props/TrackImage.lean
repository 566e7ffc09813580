import Verif.Lemmas.SpecRun
import Verif.Lemmas.MgrRel
import Verif.Props.Managers
import Verif.Props.Total

/-!
# C22 for whole readouts — elapsed times and fill fractions give the same image
-/

set_option linter.unusedSectionVars false
set_option linter.unusedVariables false

namespace Arctic

variable {K : Type} [Field K] [LinearOrder K] [IsStrictOrderedRing K]

/-- The second group has the same traps as the first, recorded as fill fractions: either nothing changes, or the first
group records elapsed times and its release law multiplies what is left by a factor that depends on the dwell time
only (as exponentials do). -/
inductive SameTraps : Group K → Group K → Prop
  | same {s : ℕ} (dens : Fin s → K) (p : K → Fin s → K) (hd : ∀ j, 0 ≤ dens j)
      (hp : ∀ t, 0 < t → ∀ j, 0 ≤ p t j ∧ p t j ≤ 1) : SameTraps ⟨s, dens, .instant p⟩ ⟨s, dens, .instant p⟩
  | timed {s : ℕ} (dens : Fin s → K) (conv : Fin s → K → K) (p : K → Fin s → K) (hd : ∀ j, 0 ≤ dens j)
      (hc0 : ∀ j, conv j 0 = 1) (hc : ∀ j x, 0 ≤ x → 0 ≤ conv j x ∧ conv j x ≤ 1)
      (hcp : ∀ j x t, 0 ≤ x → 0 < t → conv j (x + t) = conv j x * p t j) :
      SameTraps ⟨s, dens, .trackTime conv⟩ ⟨s, dens, .instant p⟩

/-- Instant-capture managers with traps within their bounds. -/
inductive InstMgr (M k : ℕ) : Mgr K → Mgr K → Prop
  | mk {s : ℕ} (dens : Fin s → K) (p : K → Fin s → K) (wm : WM K s) (hd : ∀ j, 0 ≤ dens j)
      (hp : ∀ t, 0 < t → ∀ j, 0 ≤ p t j ∧ p t j ≤ 1) (h : InstState (1 + M * 1) k wm) :
      InstMgr M k ⟨s, dens, .instant p, wm⟩ ⟨s, dens, .instant p, wm⟩

inductive TimedMgr (M k : ℕ) : Mgr K → Mgr K → Prop
  | same {m m' : Mgr K} (h : InstMgr M k m m') : TimedMgr M k m m'
  | timed {s : ℕ} (dens : Fin s → K) (conv : Fin s → K → K) (p : K → Fin s → K) (wmT wmF : WM K s) (hd : ∀ j, 0 ≤ dens j)
      (hc0 : ∀ j, conv j 0 = 1) (hc : ∀ j x, 0 ≤ x → 0 ≤ conv j x ∧ conv j x ≤ 1)
      (hcp : ∀ j x t, 0 ≤ x → 0 < t → conv j (x + t) = conv j x * p t j) (hT : TrackState (1 + M * 1) k wmT)
      (hF : InstState (1 + M * 1) k wmF) (hocc : ∀ d, 0 < d → ∀ j, occ (asFractions conv wmT) d j = occ wmF d j) :
      TimedMgr M k ⟨s, dens, .trackTime conv, wmT⟩ ⟨s, dens, .instant p, wmF⟩

/-- The managers of the code, as a description of traps. -/
def mgrSpec (K : Type) [Field K] [LinearOrder K] : TrapSpec K (Mgr K) where
  step m n x f := m.step n x f
  empty m := m.empty

theorem map_zeroRow {s L : ℕ} (wm : WM K s) (h : wm.length = L) : wm.map (fun _ => zeroRow K s) = Z L := by
  rw [List.map_const', h]; rfl

theorem instMgr_follows : Follows (mgrSpec K) true False (fun _ => True) (fun _ => True) InstMgr where
  wide _ _ := trivial
  step M k m t h hk f hf _ n x _ hx := by
    obtain ⟨dens, p, wm, hd, hp, hst⟩ := h
    obtain ⟨net, wm', h1, h2, -⟩ := instant_step dens (p x) f hf hd (hp x hx) n _ k wm hst (by omega)
    refine Or.inl ⟨net, _, _, ?_, ?_, .mk dens p wm' hd hp h2⟩
    · simp only [Mgr.step, h1, bind_ok]
    · simp only [mgrSpec, Mgr.step, h1, bind_ok]
  empty M k m t h := by
    obtain ⟨dens, p, wm, hd, hp, hst⟩ := h
    simp only [mgrSpec, Mgr.empty, map_zeroRow _ hst.1]
    exact .mk dens p _ hd hp (instState_zero _)
  mono M k k' m t h hk := by
    obtain ⟨dens, p, wm, hd, hp, hst⟩ := h
    exact .mk dens p wm hd hp (hst.mono hk)

theorem occ_zero_vol {s : ℕ} (d : K) (hd0 : 0 < d) (j : Fin s) (w : WM K s) (hw : ∀ r ∈ w, r.vol = 0) : occ w d j = 0 := by
  have := occ_append_zero [] w hw d hd0 j
  rw [List.nil_append] at this
  rw [this]; rfl

theorem occ_fresh {s : ℕ} (conv : Fin s → K → K) (z z' : ℕ) (d : K) (hd0 : 0 < d) (j : Fin s) :
    occ (asFractions conv (Z z)) d j = occ (Z z' : WM K s) d j :=
  (occ_zero_vol d hd0 j _ (map_Z_vol conv _)).trans
    (occ_zero_vol d hd0 j (Z z') fun r hr => by rw [List.eq_of_mem_replicate hr]; rfl).symm

theorem TrackState.mono' {s L k k' : ℕ} {wm : WM K s} (h : TrackState L k wm) (hk : k ≤ k') : TrackState L k' wm := by
  obtain ⟨act, z, h1, h2, h3, h4, h5, h6⟩ := h
  exact ⟨act, z, h1, h2, h3, h4, h5.trans hk, h6⟩

theorem timedMgr_follows : Follows (mgrSpec K) false True (fun _ => True) (fun _ => True) TimedMgr where
  wide _ _ := trivial
  step M k m t h hk f hf hF n x hn hx := by
    cases h with
    | same h =>
      rcases instMgr_follows.step M k m t h hk f hf hF n x hn hx with ⟨net, m', t', h1, h2, h3⟩ | ⟨h1, -⟩
      · exact Or.inl ⟨net, m', t', h1, h2, .same h3⟩
      · exact h1.elim
    | timed dens conv p wmT wmF hd hc0 hc hcp hT hF hocc =>
      have key := track_instant_step dens conv (p x) x f hf hd hc0 hc hx.le (fun j y hy => hcp j y x hy hx) n _ k _ k
        wmT wmF hT hF (by omega) (by omega) hocc
      by_cases hs : Shortage dens conv x f n wmT
      · have := (track_step dens conv x f hf hd hc0 hc hx.le n _ k wmT hT (by omega)).2 hs
        refine Or.inr ⟨trivial, ?_, fun h => by simp at h⟩
        simp only [Mgr.step, this]
        rfl
      · obtain ⟨net, wmT', wmF', h1, h2, h3, h4, h5⟩ := key.2 hs
        refine Or.inl ⟨net, _, _, ?_, ?_, .timed dens conv p wmT' wmF' hd hc0 hc hcp h3 h4 h5⟩
        · simp only [Mgr.step, h1, bind_ok]
        · simp only [mgrSpec, Mgr.step, h2, bind_ok]
  empty M k m t h := by
    cases h with
    | same h => exact .same (instMgr_follows.empty M k m t h)
    | timed dens conv p wmT wmF hd hc0 hc hcp hT hF hocc =>
      have hl : wmT.length = 1 + M * 1 := by
        obtain ⟨act, z, rfl, -, -, -, -, hl⟩ := hT
        rw [List.length_append, Z_length, hl]
      simp only [mgrSpec, Mgr.empty, map_zeroRow _ hF.1, map_zeroRow _ hl]
      exact .timed dens conv p _ _ hd hc0 hc hcp (trackState_zero _) (instState_zero _)
        fun d hd0 j => occ_fresh conv _ _ d hd0 j
  mono M k k' m t h hk := by
    cases h with
    | same h => exact .same (instMgr_follows.mono M k k' m t h hk)
    | timed dens conv p wmT wmF hd hc0 hc hcp hT hF hocc =>
      exact .timed dens conv p wmT wmF hd hc0 hc hcp (hT.mono' hk) (hF.mono hk) hocc

theorem SameTraps.newInst {g g' : Group K} (h : SameTraps g g') {x : K} (hx : 0 ≤ x) (M : ℕ) :
    InstMgr M 0 (Mgr.new (fun j => g'.dens j * x) g'.kind M) (Mgr.new (fun j => g'.dens j * x) g'.kind M) := by
  cases h with
  | same dens p hd hp => exact .mk _ p _ (fun j => mul_nonneg (hd j) hx) hp (instState_zero _)
  | timed dens conv p hd hc0 hc hcp =>
    refine .mk _ p _ (fun j => mul_nonneg (hd j) hx) (fun t ht j => ?_) (instState_zero _)
    have h1 := hcp j 0 t le_rfl ht
    rw [hc0, one_mul, zero_add] at h1
    rw [← h1]; exact hc j t ht.le

theorem SameTraps.newTimed {g g' : Group K} (h : SameTraps g g') {x : K} (hx : 0 ≤ x) (M : ℕ) :
    TimedMgr M 0 (Mgr.new (fun j => g.dens j * x) g.kind M) (Mgr.new (fun j => g'.dens j * x) g'.kind M) := by
  cases h with
  | same dens p hd hp => exact .same (.mk _ p _ (fun j => mul_nonneg (hd j) hx) hp (instState_zero _))
  | timed dens conv p hd hc0 hc hcp =>
    exact .timed _ conv p _ _ (fun j => mul_nonneg (hd j) hx) hc0 hc hcp (trackState_zero _) (instState_zero _)
      fun d hd0 j => occ_fresh conv _ _ d hd0 j

/-- **C22** for clocking in one direction: when the traps that record elapsed times raise nothing, the same traps with
fill fractions give the same image. -/
theorem C22_clock (img : Image K) (ccd : CcdView K) (roe : Roe K) (groups groups' : List (Group K)) (e o : ℕ)
    (rows columns : List ℕ) (tw : Option (List ℕ)) (hg : List.Forall₂ SameTraps groups groups')
    (hk : NoSaves roe ∨ roe.isPumping = true ∨ (e = 0 ∧ FullReadout o rows tw roe)) (hb : roe.emptyBetween = true)
    (hr : RowsFound rows roe) (hrows : ∀ w ∈ rows, w < img.nr) (hcols : ∀ c ∈ columns, c < img.nc)
    (hlow : ∀ w ∈ rows, ∀ z ∈ roe.accessed, 0 ≤ (w : ℤ) + z)
    (hlen : ccd.fractions.length ≤ roe.nPhases) (hfr : ∀ x ∈ ccd.fractions, 0 ≤ x)
    (hfill : ∀ ph < ccd.fractions.length, FillModel (ccd.fill ph)) (x : Image K × Roe K)
    (hok : clockCharge img ccd roe groups e o rows columns tw = .ok x) :
    clockCharge img ccd roe groups' e o rows columns tw = .ok x := by
  obtain ⟨l, rfl, rfl, hl⟩ : ∃ l : List (Group K × Group K), groups = l.map Prod.fst ∧ groups' = l.map Prod.snd ∧
      ∀ a ∈ l, SameTraps a.1 a.2 := by
    clear hok
    induction hg with
    | nil => exact ⟨[], rfl, rfl, fun _ h => by simp at h⟩
    | cons h _ ih =>
      obtain ⟨l, h1, h2, h3⟩ := ih
      refine ⟨(_, _) :: l, by rw [h1]; rfl, by rw [h2]; rfl, fun a ha => ?_⟩
      rcases List.mem_cons.1 ha with rfl | ha
      · exact h
      · exact h3 a ha
  unfold clockCharge at hok ⊢
  cases hm : clockCfg roe ccd e o rows tw with
  | error err => rw [hm] at hok; cases hok
  | ok y =>
    obtain ⟨cfg, roe'⟩ := y
    rw [hm] at hok
    obtain ⟨N, pos, h1, h2⟩ := schedule_of hm hk
    have h3 := runCfg_of hm hfill hlen hr img.nr hrows hlow
    have h4 : cfg.emptyBetween = true := (clockCfg_fields hm).2.2.2.2.2.2.2.trans hb
    simp only [bind, Except.bind] at hok ⊢
    rw [h2] at hok ⊢
    let new : Group K × Group K → K → Mgr K := fun a y => Mgr.new (fun j => a.2.dens j * y) a.2.kind (N * cfg.steps.length)
    have f1 := timedMgr_follows.loops (C := img.nc) h3 (fun _ _ => trivial) h1 h4 columns hcols
      (img.pad (nPadding roe.accessed), (ATM.new (l.map Prod.fst) ccd.fractions (N * cfg.steps.length),
        SpecState.new new l ccd.fractions)) ⟨rfl, rfl, fun _ _ _ _ => trivial, Follows.state_new new Prod.fst l ccd.fractions
          fun a ha y hy => (hl a ha).newTimed (hfr y hy) _⟩
    have f2 := instMgr_follows.loops (C := img.nc) h3 (fun _ _ => trivial) h1 h4 columns hcols
      (img.pad (nPadding roe.accessed), (ATM.new (l.map Prod.snd) ccd.fractions (N * cfg.steps.length),
        SpecState.new new l ccd.fractions)) ⟨rfl, rfl, fun _ _ _ _ => trivial, Follows.state_new new Prod.snd l ccd.fractions
          fun a ha y hy => (hl a ha).newInst (hfr y hy) _⟩
    simp only at f1 f2
    rcases f1 with ⟨out, a, b, g1, g2⟩ | ⟨-, g1, -⟩
    · rw [g2] at f2
      rw [g1] at hok
      rcases f2 with ⟨out', a', b', q1, q2⟩ | ⟨q1, -⟩
      · injection q2 with q2
        injection q2 with q2 _
        subst q2
        rw [q1]
        exact hok
      · exact q1.elim
    · rw [g1] at hok
      cases hok

theorem serialColumns_lt {rows t sc : List ℕ} {o n : ℕ} (h : serialColumns rows t o = .ok sc) (hr : ∀ w ∈ rows, w < n) :
    ∀ w ∈ sc, w < n := by
  unfold serialColumns at h
  split at h
  · rename_i r0 r1 t0 t1 _ e1 _ _
    injection h with h
    subst h
    intro w hw
    unfold pyRange at hw
    obtain ⟨i, hi, rfl⟩ := List.mem_map.1 hw
    have := hr r1 (List.mem_of_getLast? e1)
    have := List.mem_range.1 hi
    omega
  · cases h

theorem RunsDirection.sameTraps {rows : List ℕ} {d : Direction K} (h : RunsDirection rows d) {groups' : List (Group K)}
    (hg : List.Forall₂ SameTraps d.groups groups') (img : Image K) (o : ℕ) (columns : List ℕ) (tw : Option (List ℕ))
    (hrows : ∀ w ∈ rows, w < img.nr) (hcols : ∀ c ∈ columns, c < img.nc) (x : Image K × Roe K)
    (hok : clockCharge img d.ccd d.roe d.groups d.express o rows columns tw = .ok x) :
    clockCharge img d.ccd d.roe groups' d.express o rows columns tw = .ok x := by
  obtain ⟨⟨dw, i, hroe, hlen⟩, h2, h3, h4, h5⟩ := h
  rw [hroe] at hok ⊢
  refine C22_clock img d.ccd (.standard dw true true true i) d.groups groups' d.express o rows columns tw hg (Or.inl (by rfl)) rfl trivial hrows hcols ?_
    hlen h2 h3 x hok
  intro w _ z hz
  have := (C14_accessed (.standard dw true true true i) z hz).1 rfl
  omega

/-- **C22** for `add_cti` with standard readouts: when the call with traps that record elapsed times raises nothing,
the call with the same traps recorded as fill fractions returns the same image and readout objects. By C51 the only
other outcome of the former call is a `TypeError`. -/
theorem C22_add_cti (img : Image K) (par ser : Option (Direction K)) (pgroups sgroups : List (Group K)) (o : ℕ)
    (pw sw : Window) (tw : Option (List ℕ))
    (hp : ∀ d ∈ par, RunsDirection (pw.resolve img.nr) d ∧ List.Forall₂ SameTraps d.groups pgroups)
    (hs : ∀ d ∈ ser, RunsDirection (sw.resolve img.nc) d ∧ List.Forall₂ SameTraps d.groups sgroups)
    (hpr : ∀ w ∈ pw.resolve img.nr, w < img.nr) (hsr : ∀ w ∈ sw.resolve img.nc, w < img.nc)
    (x : Image K × Option (Direction K) × Option (Direction K)) (hok : addCti img par o pw ser sw tw = .ok x) :
    (addCti img (par.map fun d => { d with groups := pgroups }) o pw (ser.map fun d => { d with groups := sgroups }) sw
      tw).map resultOf = .ok (resultOf x) := by
  rw [addCti_halves] at hok ⊢
  suffices key : ∀ (y : Except Err (List ℕ)) (t : List ℕ), (∀ sc, y = .ok sc → ∀ c ∈ sc, c < img.nr) →
      (y >>= fun sc => bothHalves img par ser o (pw.resolve img.nr) (sw.resolve img.nc) t sc) = .ok x →
      (y >>= fun sc => bothHalves img (par.map fun d => { d with groups := pgroups })
        (ser.map fun d => { d with groups := sgroups }) o (pw.resolve img.nr) (sw.resolve img.nc) t sc).map resultOf =
        .ok (resultOf x) from by
    refine key _ _ ?_ hok
    intro sc hsc
    cases tw with
    | none => injection hsc with hsc; subst hsc; exact hpr
    | some t => exact serialColumns_lt hsc hpr
  intro y t hy h
  cases y with
  | error e => cases h
  | ok sc =>
    have hsc := hy sc rfl
    simp only [bind_ok] at h ⊢
    have hser : ∀ (mid : Image K) (p p' : Option (Direction K)), mid.nr = img.nr → mid.nc = img.nc →
        p'.map Direction.roe = p.map Direction.roe →
        serialHalf ser (sw.resolve img.nc) sc (mid, p) = .ok x →
        (serialHalf (ser.map fun d => { d with groups := sgroups }) (sw.resolve img.nc) sc (mid, p')).map resultOf =
          .ok (resultOf x) := by
      intro mid p p' h1 h2 hpp hx
      cases ser with
      | none =>
        injection hx with hx
        subst hx
        simp only [Option.map_none, serialHalf, Except.map, resultOf, hpp]
      | some d =>
        simp only [serialHalf, Option.map_some] at hx ⊢
        obtain ⟨z, hz, hx⟩ := bind_eq_ok hx
        injection hx with hx
        subst hx
        rw [(hs d rfl).1.sameTraps (hs d rfl).2 mid.transpose d.offset sc none
          (fun w hw => by change w < mid.nc; rw [h2]; exact hsr w hw)
          (fun w hw => by change w < mid.nr; rw [h1]; exact hsc w hw) z hz]
        simp only [bind_ok, Except.map, resultOf, hpp]
        rfl
    cases par with
    | none => exact hser img none none rfl rfl rfl h
    | some d =>
      simp only [bothHalves, Option.map_some] at h ⊢
      obtain ⟨z, hz, h⟩ := bind_eq_ok h
      rw [(hp d rfl).1.sameTraps (hp d rfl).2 img o (sw.resolve img.nc) (some t) hpr hsr z hz]
      have hsh := clockCharge_shape hz
      exact hser z.1 (some { d with roe := z.2 }) _ hsh.1 hsh.2 rfl h

/-- Exponential traps, recorded in the two ways. -/
example (τ : Fin 2 → ℝ) (hτ : ∀ j, 0 < τ j) :
    SameTraps (K := ℝ) ⟨2, ![3, 5], .trackTime fun j x => Real.exp (-x / τ j)⟩
      ⟨2, ![3, 5], .instant fun t j => Real.exp (-t / τ j)⟩ := by
  refine .timed _ _ _ (fun j => by fin_cases j <;> norm_num) (fun j => by simp)
    (fun j x hx => ⟨(Real.exp_pos _).le, ?_⟩) fun j x t _ _ => ?_
  · rw [Real.exp_le_one_iff]; exact div_nonpos_of_nonpos_of_nonneg (by linarith) (hτ j).le
  · rw [← Real.exp_add]; congr 1; ring

/-- Traps that keep their electrons for the whole readout: a call that raises nothing. -/
def exKeepTimed : Direction ℚ := ⟨exCcd, exRoe, [⟨1, fun _ => 10, .trackTime fun _ _ => 1⟩], 0, 0⟩

example : ((addCti (exImg 3 1 [[0], [80], [60]]) (some exKeepTimed) 0 .all none .all none).map
    fun x => [x.1.px 0 0, x.1.px 1 0, x.1.px 2 0]) = .ok [0, 324 / 5, 60] := by decide +kernel

end Arctic
