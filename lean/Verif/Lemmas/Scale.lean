import Verif.Lemmas.Relabel
import Verif.Lemmas.ClockInv
import Verif.Lemmas.MgrRel
import Verif.Spec.Units

/-!
# Changing the units of charge and time

`lam` is the factor for numbers of electrons, `mu` the factor for times. Volumes and fill fractions are pure numbers and
do not change.
-/

set_option linter.unusedSectionVars false
set_option linter.unusedVariables false

namespace Arctic

variable {K : Type} [Field K] [LinearOrder K] [IsStrictOrderedRing K] {s : ℕ}

/-! ### one transfer -/

section
variable (lam : K)

theorem scale_finish (hlam : 0 < lam) (filled : K) (tr tr' : WM K s → K) (htr : ∀ w, tr' w = lam * tr w)
    (tw : WM K s → WM K s → K → Except Err (WM K s)) (n n0 : K) (wm init : WM K s) :
    finishCapture filled tr' tw (lam * n) (lam * n0) wm init =
      (finishCapture filled tr tw n n0 wm init).map fun o => (lam * o.1, o.2) := by
  unfold finishCapture
  simp only [htr, mul_right_inj' hlam.ne', ← mul_sub, mul_div_mul_left _ _ hlam.ne']
  split
  · simp only [Except.map, mul_zero]
  · split
    · cases tw (collapseCopy filled wm init).1 (collapseCopy filled wm init).2
        (n / (tr (collapseCopy filled wm init).1 - n0)) with
      | error e => rfl
      | ok w => rfl
    · rfl

theorem scale_icStep (hlam : 0 < lam) (ops ops' : ICOps K s) (h1 : ops'.filled = ops.filled)
    (h2 : ops'.release = ops.release) (h3 : ∀ w, ops'.trapped w = lam * ops.trapped w) (h4 : ops'.tweak = ops.tweak)
    (f f' : K → K) (hf : ∀ n, f' (lam * n) = f n) (n : K) (wm : WM K s) :
    icStep ops' f' (lam * n) wm = (icStep ops f n wm).map fun o => (lam * o.1, o.2) := by
  have hrel : icRelease ops' wm = (lam * (icRelease ops wm).1, (icRelease ops wm).2) := by
    unfold icRelease
    simp only [h2, h3, mul_sub]
  have hcap : ∀ n (w : WM K s), icCapture ops' f' (lam * n) w =
      (icCapture ops f n w).map fun o => (lam * o.1, o.2) := by
    intro n w
    unfold icCapture
    simp only [h3, hf, gt_iff_lt, mul_pos_iff_of_pos_left hlam]
    split
    · unfold icFirstCapture
      simp only [h1, h3, h4, mul_div_mul_left _ _ hlam.ne', mul_eq_zero, hlam.ne', false_or]
      split
      · simp only [Except.map, mul_zero]
      · split
        · cases ops.tweak (w.modify 0 fun _ => ⟨f n, fun _ => ops.filled⟩) (setVol w 0 (f n))
            (n / ops.trapped (w.modify 0 fun _ => ⟨f n, fun _ => ops.filled⟩)) with
          | error e => rfl
          | ok w2 => rfl
        · rfl
    · rw [h1, h4]
      split
      · cases splitAtCloud (f n) (watermarkIndexAboveCloud (f n) w (maxWatermarkIndex w))
          (maxWatermarkIndex w) w w with
        | error e => rfl
        | ok o => exact scale_finish lam hlam _ _ _ h3 _ _ _ _ _
      · cases newTopWatermark (f n) (watermarkIndexAboveCloud (f n) w (maxWatermarkIndex w)) w w with
        | error e => rfl
        | ok o => exact scale_finish lam hlam _ _ _ h3 _ _ _ _ _
  unfold icStep
  rw [hrel]
  simp only [← mul_add, hcap]
  cases icCapture ops f (n + (icRelease ops wm).1) (icRelease ops wm).2 with
  | error e => rfl
  | ok o => simp only [Except.map, bind_ok, mul_sub]

theorem trapped_scale (dens : Fin s → K) (wm : WM K s) :
    cyNTrapped wm (fun j => lam * dens j) = lam * cyNTrapped wm dens := by
  unfold cyNTrapped
  rw [← List.sum_map_mul_left]
  congr 1
  apply List.map_congr_left
  intro r _
  rw [Finset.mul_sum]
  exact Finset.sum_congr rfl fun j _ => by ring

theorem scale_slowStep (hlam : 0 < lam) (dens : Fin s → K) (p : Probs K s) (f f' : K → K)
    (hf : ∀ n, f' (lam * n) = f n) (n : K) (wm : WM K s) :
    slowStep (fun j => lam * dens j) p f' (lam * n) wm = (slowStep dens p f n wm).map fun o => (lam * o.1, o.2) := by
  have ht := trapped_scale lam dens
  have hfin : ∀ (nf n0 : K) (w init : WM K s),
      finishCapture 1 (fun w => lam * cyNTrapped w dens) (fun w w0 e => .ok (notEnough w w0 e))
        (lam * nf) (lam * n0) w init =
      (finishCapture 1 (fun w => cyNTrapped w dens) (fun w w0 e => .ok (notEnough w w0 e)) nf n0 w init).map
        fun o => (lam * o.1, o.2) :=
    fun nf n0 w init => scale_finish lam hlam 1 _ _ (fun w => rfl) _ nf n0 w init
  unfold slowStep
  simp only [ht, hf, gt_iff_lt, mul_pos_iff_of_pos_left hlam]
  split
  · unfold slowFirstCapture
    simp only [ht, mul_div_mul_left _ _ hlam.ne', mul_eq_zero, hlam.ne', false_or]
    split
    · simp only [Except.map, mul_zero]
    · split <;> simp only [Except.map, mul_neg]
  · split
    · unfold slowCloudBelow
      cases splitAtCloud (f n) (watermarkIndexAboveCloud (f n) wm (maxWatermarkIndex wm))
          (maxWatermarkIndex wm) wm wm with
      | error e => rfl
      | ok o =>
        obtain ⟨a, b, mx⟩ := o
        simp only [bind_ok, ht, ← mul_sub, ← mul_add, hf]
        generalize mapFills _ _ (fun j x => x * p.fromRelease j) a = a2
        generalize n + (cyNTrapped wm dens - cyNTrapped a2 dens) = nf
        cases splitAtCloud (f nf) (watermarkIndexAboveCloud (f nf) a2 mx) mx a2 b with
        | error e => rfl
        | ok o =>
          obtain ⟨a3, b3, mx3⟩ := o
          simp only [bind_ok, hfin]
          cases finishCapture 1 (fun w => cyNTrapped w dens) (fun w w0 e => .ok (notEnough w w0 e)) nf
            (cyNTrapped wm dens) (mapFills 0 (watermarkIndexAboveCloud (f nf) a2 mx + 1).toNat
              (fun j x => x * p.fromFull j + (1 - x) * p.fromEmpty j) a3) b3 with
          | error e => rfl
          | ok o => simp only [Except.map, bind_ok, mul_neg]
    · cases newTopWatermark (f n) (watermarkIndexAboveCloud (f n) wm (maxWatermarkIndex wm)) wm wm with
      | error e => rfl
      | ok o =>
        obtain ⟨a, b⟩ := o
        simp only [bind_ok, hfin]
        cases finishCapture 1 (fun w => cyNTrapped w dens) (fun w w0 e => .ok (notEnough w w0 e)) n
          (cyNTrapped wm dens) (mapFills 0 (watermarkIndexAboveCloud (f n) wm (maxWatermarkIndex wm) + 1).toNat
            (fun j x => x * p.fromFull j + (1 - x) * p.fromEmpty j) a) b with
        | error e => rfl
        | ok o => simp only [Except.map, bind_ok, mul_neg]

end

/-! ### managers -/

/-- The species data of a group in another unit of time. The arrays of elapsed times are in units of time themselves:
for them only the unit of charge may change. -/
inductive KindScaled (mu : K) : Kind K s → Kind K s → Prop
  | slow (p p' : K → Probs K s) (h : ∀ t, p' (mu * t) = p t) : KindScaled mu (.slow p) (.slow p')
  | instant (p p' : K → Fin s → K) (h : ∀ t, p' (mu * t) = p t) : KindScaled mu (.instant p) (.instant p')
  | trackTime (c : Fin s → K → K) (h : mu = 1) : KindScaled mu (.trackTime c) (.trackTime c)

/-- A manager and the same manager in other units. -/
inductive MgrScaled (lam mu : K) : Mgr K → Mgr K → Prop
  | mk {s : ℕ} (dens : Fin s → K) (k k' : Kind K s) (h : KindScaled mu k k') (wm : WM K s) :
      MgrScaled lam mu ⟨s, dens, k, wm⟩ ⟨s, fun j => lam * dens j, k', wm⟩

variable {lam mu : K}

theorem MgrScaled.step (hlam : 0 < lam) {m m' : Mgr K} (h : MgrScaled lam mu m m') (f f' : K → K)
    (hf : ∀ n, f' (lam * n) = f n) (n t : K) :
    ExRel (fun a b => b.1 = lam * a.1 ∧ MgrScaled lam mu a.2 b.2) (m.step n t f) (m'.step (lam * n) (mu * t) f') := by
  obtain ⟨dens, k, k', hk, wm⟩ := h
  have key : ∀ x : Except Err (K × WM K _), ExRel (fun a b => b.1 = lam * a.1 ∧ MgrScaled lam mu a.2 b.2)
      (x.map fun o => (o.1, (⟨_, dens, k, o.2⟩ : Mgr K)))
      ((x.map fun o => (lam * o.1, o.2)).map fun o => (o.1, (⟨_, fun j => lam * dens j, k', o.2⟩ : Mgr K))) := by
    intro x
    cases x with
    | error e => rfl
    | ok o => exact ⟨rfl, .mk dens k k' hk o.2⟩
  cases hk with
  | slow p p' h =>
    rw [step_slow, step_slow, h, scale_slowStep lam hlam dens (p t) f f' hf]
    exact key _
  | instant p p' h =>
    rw [step_instant, step_instant, h, scale_icStep lam hlam (instantOps dens (p t)) (instantOps (fun j => lam * dens j) (p t)) rfl rfl
      (fun w => trapped_scale lam dens w) rfl f f' hf]
    exact key _
  | trackTime c h =>
    subst h
    rw [one_mul, step_track, step_track, scale_icStep lam hlam (trackTimeOps dens c t) (trackTimeOps (fun j => lam * dens j) c t) rfl rfl
      (fun w => trapped_scale lam dens _) rfl f f' hf]
    exact key _

theorem MgrScaled.empty {m m' : Mgr K} (h : MgrScaled lam mu m m') : MgrScaled lam mu m.empty m'.empty := by
  obtain ⟨dens, k, k', hk, wm⟩ := h
  exact .mk dens k k' hk _

theorem groupsStep_scaled (hlam : 0 < lam) (f f' : K → K) (hf : ∀ n, f' (lam * n) = f n) (n t : K)
    {ms ms' : List (Mgr K)} (h : List.Forall₂ (MgrScaled lam mu) ms ms') :
    ExRel (fun a b => b.1 = lam * a.1 ∧ List.Forall₂ (MgrScaled lam mu) a.2 b.2) (groupsStep n t f ms)
      (groupsStep (lam * n) (mu * t) f' ms') := by
  induction h with
  | nil => exact ⟨(mul_zero lam).symm, .nil⟩
  | cons hm hms ih =>
    unfold groupsStep
    refine ExRel.bind (hm.step hlam f f' hf n t) ?_
    rintro ⟨a, m⟩ ⟨b, m'⟩ ⟨e, hm⟩
    refine ExRel.bind ih ?_
    rintro ⟨a', l⟩ ⟨b', l'⟩ ⟨e', hl⟩
    simp only at e e'
    subst e e'
    exact ⟨(mul_add lam a a').symm, .cons hm hl⟩

/-! ### images and loops -/

/-- The settings of the loops in another unit of time. -/
def ClockCfg.scaleTime (mu : K) (cfg : ClockCfg K) : ClockCfg K := { cfg with dwell := cfg.dwell.map fun t => mu * t }

theorem Image.scale_read (i : Image K) (r : ℤ) (c : ℕ) : (i.scale lam).read r c = (i.read r c).map fun v => lam * v := by
  unfold Image.read Image.scale
  simp only
  split <;> rfl

theorem Image.scale_set (i : Image K) (r c : ℕ) (v : K) : (i.scale lam).set r c (lam * v) = (i.set r c v).scale lam := by
  unfold Image.set Image.scale
  simp only [mul_ite]

theorem writeAll_scale (hlam : 0 < lam) (row0 : ℤ) (c : ℕ) (net mult : K) (rel : List (ℤ × K)) : ∀ i : Image K,
    writeAll (i.scale lam) row0 c (lam * net) mult rel = (writeAll i row0 c net mult rel).map (Image.scale lam) := by
  induction rel with
  | nil => intro i; rfl
  | cons o rel ih =>
    intro i
    obtain ⟨off, frac⟩ := o
    have h1 : writeBack (i.scale lam) (row0 + off) c (lam * net * frac * mult) =
        (writeBack i (row0 + off) c (net * frac * mult)).map (Image.scale lam) := by
      unfold writeBack
      rw [Image.scale_read]
      cases i.read (row0 + off) c with
      | error e => rfl
      | ok old =>
        have h2 : lam * old + lam * net * frac * mult = lam * (old + net * frac * mult) := by ring
        simp only [Except.map, bind_ok, h2, mul_neg_iff, hlam, hlam.not_gt, true_and, false_and, or_false]
        rw [← Image.scale_set, mul_ite, mul_zero]
    unfold writeAll
    rw [h1]
    cases writeBack i (row0 + off) c (net * frac * mult) with
    | error e => rfl
    | ok j => exact ih j

variable {S S' : Type}

/-- Trap systems in different units. -/
structure SysScaled (lam mu : K) (sys : TrapSys K S) (sys' : TrapSys K S') (RS : S → S' → Prop) : Prop where
  react : ∀ s t, RS s t → ∀ phase n dwell, ExRel (fun a b => b.1 = lam * a.1 ∧ RS a.2 b.2)
    (sys.react s phase n dwell) (sys'.react t phase (lam * n) (mu * dwell))
  save : ∀ s t, RS s t → RS (sys.save s) (sys'.save t)
  restore : ∀ s t, RS s t → RS (sys.restore s) (sys'.restore t)
  empty : ∀ s t, RS s t → RS (sys.emptyAll s) (sys'.emptyAll t)

def StScaled (lam : K) (RS : S → S' → Prop) (a : Image K × S) (b : Image K × S') : Prop :=
  b.1 = a.1.scale lam ∧ RS a.2 b.2

theorem clockLoops_scaled (hlam : 0 < lam) {sys : TrapSys K S} {sys' : TrapSys K S'} {RS : S → S' → Prop}
    (hS : SysScaled lam mu sys sys' RS) (cfg : ClockCfg K) (columns : List ℕ) (st : Image K × S) (st' : Image K × S')
    (h : StScaled lam RS st st') :
    ExRel (StScaled lam RS) (clockLoops sys cfg columns st) (clockLoops sys' (cfg.scaleTime mu) columns st') := by
  have hphase : ∀ (c rowIdx : ℕ) (mult : K) (step phase : ℕ) (st : Image K × S) (st' : Image K × S'),
      StScaled lam RS st st' → ExRel (StScaled lam RS) (phaseBody sys cfg c rowIdx mult step st phase)
        (phaseBody sys' (cfg.scaleTime mu) c rowIdx mult step st' phase) := by
    intro c rowIdx mult step phase st st' h
    obtain ⟨i, s⟩ := st
    obtain ⟨j, t⟩ := st'
    obtain ⟨h1, h2⟩ := h
    simp only at h1 h2
    subst h1
    unfold phaseBody
    have e0 : (cfg.scaleTime mu).dwell[step]? = cfg.dwell[step]?.map fun t => mu * t := by
      unfold ClockCfg.scaleTime
      simp only [List.getElem?_map]
    rw [e0]
    change ExRel _ _ (match cfg.clockSeq[step]?.bind (fun l => l[phase]?), cfg.rowWindow[rowIdx]?,
      cfg.dwell[step]?.map (fun t => mu * t) with | some ph, some row0, some dwell => _ | l, _, _ => _)
    cases cfg.clockSeq[step]?.bind (fun l => l[phase]?) with
    | none => rfl
    | some ph =>
      cases cfg.rowWindow[rowIdx]? with
      | none => rfl
      | some row0 =>
        cases cfg.dwell[step]? with
        | none => rfl
        | some dwell =>
          simp only [Option.map_some, Image.scale_read]
          cases i.read ((row0 : ℤ) + ph.captureFrom) c with
          | error e => rfl
          | ok v =>
            simp only [Except.map, bind_ok, mul_assoc]
            refine ExRel.bind (hS.react s t h2 phase _ dwell) ?_
            rintro ⟨net, s1⟩ ⟨net', t1⟩ ⟨e, hs⟩
            simp only at e hs
            subst e
            simp only
            split
            · exact ⟨rfl, hs⟩
            · rw [writeAll_scale hlam]
              cases writeAll i row0 c net mult ph.release with
              | error e => rfl
              | ok i' => exact ⟨rfl, hs⟩
  unfold clockLoops
  refine foldlM_rel _ _ _ _ (fun c _ st st' h => ?_) _ _ h
  unfold columnBody
  refine ExRel.bind (R := StScaled lam RS) (foldlM_rel _ _ _ _ (fun k _ st st' h => ?_) _ _ h) ?_
  · unfold expressBody
    refine foldlM_rel _ _ _ _ (fun j _ st st' h => ?_) _ _ ⟨h.1, hS.restore _ _ h.2⟩
    unfold rowBody
    refine ExRel.bind (R := StScaled lam RS) (foldlM_rel _ _ _ _ (fun step _ st st' h => ?_) _ _ h) ?_
    · unfold stepBody
      exact foldlM_rel _ _ _ _ (fun phase _ st st' h => hphase c j _ step phase st st' h) _ _ h
    · intro a b hab
      change ExRel _ _ (Except.ok (if cfg.saveMat.e k j then _ else _))
      split
      · exact ⟨hab.1, hS.save _ _ hab.2⟩
      · exact hab
  · intro a b hab
    change ExRel _ _ (Except.ok (b.1, sys'.save (if cfg.emptyBetween then _ else _)))
    refine ⟨hab.1, hS.save _ _ ?_⟩
    split
    · exact hS.empty _ _ hab.2
    · exact hab.2

/-! ### the object holding all managers -/

def AtmScaled (lam mu : K) (a b : ATM K) : Prop := MAtmRel (MgrScaled lam mu) a b

theorem DataRel.emptied_scaled {d d' : List (List (Mgr K))} (hd : DataRel (MgrScaled lam mu) d d') :
    DataRel (MgrScaled lam mu) (d.map fun ms => ms.map Mgr.empty) (d'.map fun ms => ms.map Mgr.empty) := by
  unfold DataRel at *
  rw [List.forall₂_map_left_iff, List.forall₂_map_right_iff]
  refine hd.imp fun a b hab => ?_
  rw [List.forall₂_map_left_iff, List.forall₂_map_right_iff]
  exact hab.imp fun m m' hm => hm.empty

theorem atm_scaled (hlam : 0 < lam) (fill fill' : ℕ → K → K) (hf : ∀ ph n, fill' ph (lam * n) = fill ph n) :
    SysScaled lam mu (atmSys fill) (atmSys fill') (AtmScaled lam mu) where
  react := by
    rintro a b ⟨h1, h2⟩ phase n dwell
    change ExRel _ (a.react phase n dwell (fill phase)) (b.react phase (lam * n) (mu * dwell) (fill' phase))
    unfold ATM.react
    have := forall₂_getElem? h1 phase
    rcases e : a.data[phase]? with - | ms <;> rcases e' : b.data[phase]? with - | ms' <;> rw [e, e'] at this
    · exact rfl
    · cases this
    · cases this
    · cases this with
      | some this =>
        refine ExRel.bind (groupsStep_scaled hlam (fill phase) (fill' phase) (hf phase) n dwell this) ?_
        rintro ⟨x, l⟩ ⟨y, l'⟩ ⟨e, hl⟩
        exact ⟨e, forall₂_set h1 phase hl, h2⟩
  save := by
    rintro a b ⟨h1, h2⟩
    exact ⟨h1, .some h1⟩
  restore := by
    rintro a b ⟨h1, h2⟩
    change MAtmRel _ a.restore b.restore
    unfold ATM.restore
    rcases e : a.saved with - | d <;> rcases e' : b.saved with - | d' <;> rw [e, e'] at h2
    · exact ⟨h1.emptied_scaled, .none⟩
    · cases h2
    · cases h2
    · cases h2 with
      | some h2 => exact ⟨h2, .some h2⟩
  empty := by
    rintro a b ⟨h1, h2⟩
    exact ⟨h1.emptied_scaled, h2⟩

/-- A group in other units. -/
inductive GroupScaled (lam mu : K) : Group K → Group K → Prop
  | mk {s : ℕ} (dens : Fin s → K) (k k' : Kind K s) (h : KindScaled mu k k') :
      GroupScaled lam mu ⟨s, dens, k⟩ ⟨s, fun j => lam * dens j, k'⟩

theorem KindScaled.perTransfer {k k' : Kind K s} (h : KindScaled mu k k') : k'.perTransfer = k.perTransfer := by
  cases h <;> rfl

theorem atm_new_scaled {groups groups' : List (Group K)} (h : List.Forall₂ (GroupScaled lam mu) groups groups')
    (fractions : List K) (M : ℕ) : AtmScaled lam mu (ATM.new groups fractions M) (ATM.new groups' fractions M) := by
  refine ⟨?_, .none⟩
  unfold ATM.new DataRel
  simp only
  rw [List.forall₂_map_left_iff, List.forall₂_map_right_iff, List.forall₂_same]
  intro frac _
  rw [List.forall₂_map_left_iff, List.forall₂_map_right_iff]
  refine h.imp fun a b hab => ?_
  obtain ⟨dens, k, k', hk⟩ := hab
  simp only [Mgr.new, mul_assoc, hk.perTransfer]
  exact .mk _ k k' hk _

section
variable (mu : K)

theorem scaleTime_dwell (r : Roe K) : (r.scaleTime mu).dwell = r.dwell.map fun t => mu * t := by cases r <;> rfl

theorem scaleTime_nPhases (r : Roe K) : (r.scaleTime mu).nPhases = r.nPhases := by
  cases r <;> simp [Roe.scaleTime, Roe.nPhases]

theorem scaleTime_clockSequence (r : Roe K) : (r.scaleTime mu).clockSequence = r.clockSequence := by
  unfold Roe.clockSequence Roe.nSteps
  rw [scaleTime_dwell, scaleTime_nPhases, List.length_map]
  cases r <;> rfl

theorem scaleTime_accessed (r : Roe K) : (r.scaleTime mu).accessed = r.accessed := by
  unfold Roe.accessed
  rw [scaleTime_clockSequence]

theorem scaleTime_emptyBetween (r : Roe K) : (r.scaleTime mu).emptyBetween = r.emptyBetween := by cases r <;> rfl

theorem scaleTime_save (r : Roe K) (m : Mat K) : (r.scaleTime mu).save m = r.save m := by cases r <;> rfl

theorem scaleTime_isPumping (r : Roe K) : (r.scaleTime mu).isPumping = r.isPumping := by cases r <;> rfl

theorem scaleTime_express (r : Roe K) (w : List ℕ) (e o : ℕ) (tw : Option (List ℕ)) :
    (r.scaleTime mu).express w e o tw = (r.express w e o tw).map fun x => (x.1, x.2.1, x.2.2.scaleTime mu) := by
  cases r with
  | standard d a b c i =>
    simp only [Roe.scaleTime, Roe.express]
    cases roeExpress (K := K) a i w e o tw <;> rfl
  | injection d n b f i =>
    simp only [Roe.scaleTime, Roe.express]
    cases injectionExpress (K := K) i n w e o tw <;> rfl
  | pumping d n a i =>
    simp only [Roe.scaleTime, Roe.express]
    cases pumpingExpress (K := K) a i n w.length e <;> rfl

end

theorem positiveIndices_scale (hmu : 0 < mu) (l : List K) : positiveIndices (l.map fun t => mu * t) = positiveIndices l := by
  unfold positiveIndices
  rw [List.length_map]
  apply List.filter_congr
  intro i hi
  rw [List.mem_range] at hi
  rw [List.getD_eq_getElem _ _ (by simpa using hi), List.getD_eq_getElem _ _ hi, List.getElem_map]
  exact decide_eq_decide.2 (mul_pos_iff_of_pos_left hmu)

theorem clockCfg_scaled (hmu : 0 < mu) (roe : Roe K) (ccd ccd' : CcdView K) (hccd : ccd'.fractions = ccd.fractions)
    (e o : ℕ) (rows : List ℕ) (tw : Option (List ℕ)) :
    clockCfg (roe.scaleTime mu) ccd' e o rows tw =
      (clockCfg roe ccd e o rows tw).map fun x => (x.1.scaleTime mu, x.2.scaleTime mu) := by
  unfold clockCfg
  rw [scaleTime_express]
  cases roe.express rows e o tw with
  | error e => rfl
  | ok x =>
    obtain ⟨m, mon, r'⟩ := x
    simp only [Except.map, bind_ok, scaleTime_save, scaleTime_clockSequence, scaleTime_dwell, scaleTime_emptyBetween,
      positiveIndices_scale hmu, hccd]
    cases roe.save m <;> rfl

theorem maxNTransfers_scaled (roe : Roe K) (cfg : ClockCfg K) :
    maxNTransfers (roe.scaleTime mu) (cfg.scaleTime mu) = maxNTransfers roe cfg := by
  unfold maxNTransfers
  rw [scaleTime_isPumping]
  rfl

theorem Image.scale_pad (img : Image K) (n : ℕ) : (img.scale lam).pad n = (img.pad n).scale lam := by
  unfold Image.scale Image.pad
  simp only [mul_ite, mul_zero]

theorem Image.scale_unpad (img : Image K) (n : ℕ) : (img.scale lam).unpad n = (img.unpad n).scale lam := rfl

theorem Image.scale_transpose (img : Image K) : (img.scale lam).transpose = (img.transpose).scale lam := rfl

/-- The loops with two lists of managers in different units. -/
theorem loops_scaled (hlam : 0 < lam) {ccd ccd' : CcdView K} (hf : ∀ ph n, ccd'.fill ph (lam * n) = ccd.fill ph n)
    (cfg : ClockCfg K) (columns : List ℕ) (img : Image K) {a a' : ATM K} (h : AtmScaled lam mu a a') :
    (clockLoops (atmSys ccd'.fill) (cfg.scaleTime mu) columns (img.scale lam, a')).map Prod.fst =
      ((clockLoops (atmSys ccd.fill) cfg columns (img, a)).map Prod.fst).map (Image.scale lam) := by
  have := clockLoops_scaled hlam (atm_scaled (mu := mu) hlam ccd.fill ccd'.fill hf) cfg columns (img, a)
    (img.scale lam, a') ⟨rfl, h⟩
  generalize clockLoops (atmSys ccd.fill) cfg columns (img, a) = x at this ⊢
  generalize clockLoops (atmSys ccd'.fill) (cfg.scaleTime mu) columns (img.scale lam, a') = y at this ⊢
  rcases x with e | ⟨i, s⟩ <;> rcases y with e' | ⟨j, t⟩ <;> simp only [ExRel] at this
  · rw [this]; rfl
  · obtain ⟨h1, -⟩ := this
    simp only at h1
    subst h1
    rfl

theorem clockCharge_scaled (hlam : 0 < lam) (hmu : 0 < mu) (img : Image K) {ccd ccd' : CcdView K} (roe : Roe K)
    {groups groups' : List (Group K)} (hfr : ccd'.fractions = ccd.fractions)
    (hf : ∀ ph n, ccd'.fill ph (lam * n) = ccd.fill ph n) (hg : List.Forall₂ (GroupScaled lam mu) groups groups')
    (e o : ℕ) (rows columns : List ℕ) (tw : Option (List ℕ)) :
    clockCharge (img.scale lam) ccd' (roe.scaleTime mu) groups' e o rows columns tw =
      (clockCharge img ccd roe groups e o rows columns tw).map fun x => (x.1.scale lam, x.2.scaleTime mu) := by
  unfold clockCharge
  rw [clockCfg_scaled hmu roe ccd ccd' hfr]
  cases clockCfg roe ccd e o rows tw with
  | error e => rfl
  | ok x =>
    obtain ⟨cfg, roe'⟩ := x
    simp only [Except.map, bind_ok, scaleTime_accessed, maxNTransfers_scaled, Image.scale_pad, hfr]
    have := loops_scaled hlam hf cfg columns (img.pad (nPadding roe.accessed))
      (atm_new_scaled hg ccd.fractions (maxNTransfers roe cfg))
    generalize clockLoops (atmSys ccd.fill) cfg columns
      (img.pad (nPadding roe.accessed), ATM.new groups ccd.fractions (maxNTransfers roe cfg)) = x at this ⊢
    generalize clockLoops (atmSys ccd'.fill) (cfg.scaleTime mu) columns
      ((img.pad (nPadding roe.accessed)).scale lam, ATM.new groups' ccd.fractions (maxNTransfers roe cfg)) = y at this ⊢
    rcases x with e | ⟨i, s⟩ <;> rcases y with e' | ⟨j, t⟩ <;> simp only [Except.map] at this
    · injection this with this
      subst this
      rfl
    · cases this
    · cases this
    · injection this with this
      subst this
      rfl

end Arctic
