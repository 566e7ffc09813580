import Verif.Props.ZeroDensity

set_option linter.unusedSectionVars false
set_option linter.unusedVariables false

/-!
# C87 — settings that make no difference

`surface` of a trap (traps.py:7-53) and `well_bloom_level` of a CCD (ccd.py:9-84) are documented to limit traps to the
electrons above the blooming level; `force_release_away_from_readout`, `empty_traps_between_columns` and `use_integer_express_matrix`
(roe.py:338-423) matter only in some cases.
-/

namespace Arctic

/-! ## Surface traps and blooming level -/

/-- The trap with `surface=False`. -/
def Trap.bulk : Trap → Trap
  | .trap d τ c _ => .trap d τ c false
  | .instant d τ _ => .instant d τ false
  | t => t

/-- The item with bulk traps only. -/
def PyItem.bulk : PyItem → PyItem
  | .trap t => .trap t.bulk
  | .group l => .group (l.map Trap.bulk)

/-- The argument with bulk traps only. -/
def PyTraps.bulk : PyTraps → PyTraps
  | .one t => .one t.bulk
  | .list l => .list (l.map PyItem.bulk)

/-- The CCD with another blooming level. -/
def CCD.withBloom (c : CCD) (b : List Bloom) : CCD := { c with bloomLevel := b }

theorem CCD.withBloom_view (c : CCD) (b : List Bloom) : (c.withBloom b).view = c.view := rfl

/-- An element of the outer list with bulk traps only. -/
def bulkOuter : List PyItem ⊕ Trap → List PyItem ⊕ Trap
  | .inl l => .inl (l.map PyItem.bulk)
  | .inr t => .inr t.bulk

theorem PyTraps.bulk_normal (t : PyTraps) : t.bulk.normal = t.normal.map (List.map bulkOuter) := by
  cases t with
  | one t => rfl
  | list l =>
    cases l with
    | nil => rfl
    | cons a l =>
      cases a with
      | trap t => rfl
      | group g =>
        simp only [PyTraps.bulk, PyTraps.normal, List.map_cons, PyItem.bulk, Except.map, List.map_map, bulkOuter]
        refine congrArg Except.ok (congrArg₂ List.cons rfl (List.map_congr_left fun x _ => ?_))
        cases x with
        | trap t => rfl
        | group g => simp [bulkOuter, PyItem.bulk]

theorem pyGroup_bulk (x : List PyItem ⊕ Trap) : pyGroup (bulkOuter x) = (pyGroup x).map (List.map Trap.bulk) := by
  rcases x with l | t
  · have key : ∀ l : List PyItem,
        ((l.map PyItem.bulk).mapM fun x : PyItem => match x with
          | .trap t => (.ok t : Except Err Trap)
          | .group _ => .error .attributeError) =
        (l.mapM fun x : PyItem => match x with
          | .trap t => (.ok t : Except Err Trap)
          | .group _ => .error .attributeError).map (List.map Trap.bulk) := by
      intro l
      induction l with
      | nil => rfl
      | cons a l ih =>
        rw [List.map_cons, List.mapM_cons, List.mapM_cons, ih]
        cases a with
        | group g => rfl
        | trap t =>
          simp only [PyItem.bulk, bind_ok]
          generalize (l.mapM fun x : PyItem => match x with
            | .trap t => (.ok t : Except Err Trap)
            | .group _ => .error .attributeError) = y
          cases y <;> rfl
    cases l with
    | nil => rfl
    | cons a l => exact key (a :: l)
  · rfl

section group

/-- The group made of traps given one by one, with the class of `t`. -/
noncomputable def groupFrom (n : ℕ) (f : Fin n → Trap) (t : Trap) : Group ℝ where
  s := n
  dens := fun j => (f j).density
  kind := match t with
    | .continuum .. => .trackTime fun j => (f j).fillFraction
    | .instant .. => .instant fun dwell j => fillFromRelease (f j) dwell
    | .trap .. => .slow fun dwell => fillProbs f dwell

theorem groupFrom_bulk {n m : ℕ} (h : n = m) (f : Fin n → Trap) (g : Fin m → Trap) (hg : ∀ j, g (Fin.cast h j) = (f j).bulk)
    (t : Trap) : groupFrom m g t.bulk = groupFrom n f t := by
  subst h
  have hg' : ∀ j, g j = (f j).bulk := hg
  have h1 : (fun j => (g j).density) = fun j => (f j).density := by
    funext j; rw [hg']; cases f j <;> rfl
  have h2 : (fun j => (g j).fillFraction) = fun j => (f j).fillFraction := by
    funext j; rw [hg']; cases f j <;> rfl
  have h3 : (fun dwell j => fillFromRelease (g j) dwell) = fun dwell j => fillFromRelease (f j) dwell := by
    funext dwell j; rw [hg']; cases f j <;> rfl
  have h4 : (fun dwell => fillProbs g dwell) = fun dwell => fillProbs f dwell := by
    funext dwell
    unfold fillProbs
    congr 1 <;> funext j <;> rw [hg'] <;> cases f j <;> rfl
  cases t <;> simp only [groupFrom, Trap.bulk, h1, h2, h3, h4]

theorem groupOfTraps_bulk (l : List Trap) : groupOfTraps (l.map Trap.bulk) = groupOfTraps l := by
  cases l with
  | nil => rfl
  | cons t l =>
    have h1 : ∀ (t : Trap) (l : List Trap),
        groupOfTraps (t :: l) = .ok (groupFrom (t :: l).length (fun j => (t :: l)[j]) t) := fun t l => rfl
    rw [List.map_cons, h1, h1]
    refine congrArg Except.ok (groupFrom_bulk (by simp) _ _ (fun j => ?_) t)
    exact List.getElem_map (l := t :: l) (i := (j : ℕ)) Trap.bulk (h := by rw [List.length_map]; exact j.2)

end group

theorem allTrapManager_bulk (t : PyTraps) (fr : List ℝ) (n : ℕ) : allTrapManager t.bulk fr n = allTrapManager t fr n := by
  unfold allTrapManager
  rw [t.bulk_normal]
  cases t.normal with
  | error e => rfl
  | ok outer =>
    simp only [Except.map, bind_ok]
    split
    · rfl
    · have : ((outer.map bulkOuter).mapM fun g => do groupOfTraps (← pyGroup g)) =
          (outer.mapM fun g => do groupOfTraps (← pyGroup g)) := by
        induction outer with
        | nil => rfl
        | cons a l ih =>
          rw [List.map_cons, List.mapM_cons, List.mapM_cons, ih, pyGroup_bulk]
          cases pyGroup a with
          | error e => rfl
          | ok x => simp only [Except.map, bind_ok, groupOfTraps_bulk]
      rw [this]

/-- **C87**: `bulk` is what it is meant to be: a trap with `surface=False`; only surface traps differ from it. Continua
never are surface traps (`TrapLifetimeContinuumAbstract` takes no such argument). -/
theorem C87_bulk (t : Trap) : t.bulk.surface = false ∧ (t.bulk = t ↔ t.surface = false) ∧
    t.bulk.density = t.density ∧ t.bulk.releaseTimescale = t.releaseTimescale ∧
      t.bulk.captureTimescale = t.captureTimescale ∧ ∀ d f m s, (Trap.continuum d f m s).surface = false := by
  refine ⟨?_, ?_, ?_, ?_, ?_, fun _ _ _ _ => rfl⟩
  · cases t <;> rfl
  · rcases t with ⟨d, r, c, _ | _⟩ | ⟨d, r, _ | _⟩ | ⟨d, f, m, s⟩ <;> simp [Trap.bulk, Trap.surface]
  all_goals cases t <;> rfl

/-- **C87** for one direction of clocking: neither the blooming level nor `surface` has an effect, for any arguments and errors. -/
theorem C87_surface (img : Image ℝ) (ccd : Option CCD) (b : CCD → List Bloom) (roe : Roe ℝ) (traps : PyTraps) (e o : ℕ)
    (rows columns : List ℕ) (tw : Option (List ℕ)) :
    clockChargePy img (ccd.map fun c => c.withBloom (b c)) roe traps.bulk e o rows columns tw =
      clockChargePy img ccd roe traps e o rows columns tw := by
  cases ccd with
  | none => rfl
  | some c =>
    simp only [Option.map_some, clockChargePy, CCD.withBloom_view]
    congr 1
    funext x
    rw [allTrapManager_bulk]
    rfl

/-! ## Settings of the readout -/

section settings
variable {K : Type} [Field K] [LinearOrder K] [IsStrictOrderedRing K]

/-- The readout with other values of `force_release_away_from_readout`, `empty_traps_between_columns` and
`use_integer_express_matrix`; pumping has only the last. -/
def Roe.set (f b i : Bool) : Roe K → Roe K
  | .standard d ef _ _ _ => .standard d ef b f i
  | .injection d n _ _ _ => .injection d n b f i
  | .pumping d n ef _ => .pumping d n ef i

/-- The number of transfers (after removal of the first, if it is separate) is a multiple of the number of express passes. -/
def ExactExpress (ef : Bool) (n e o : ℕ) : Prop :=
  effectiveExpress e (n + o) ∣ (if ef = true ∧ effectiveExpress e (n + o) < n then n - 1 else n) + o

/-- The same for pumping. -/
def ExactPumps (ef : Bool) (n e : ℕ) : Prop :=
  effectiveExpress e n ∣ if ef = true ∧ n > 1 ∧ effectiveExpress e n < n then n - 1 else n

/-- The cases in which the settings `f b i` do the same as those of the readout. -/
def Roe.Idle (f b i : Bool) (e o : ℕ) (rows columns : List ℕ) : Roe K → Prop
  | .standard d ef b0 f0 i0 => (f = f0 ∨ d.length = 1) ∧ (b = b0 ∨ columns.length ≤ 1) ∧
      (i = i0 ∨ ∀ m ∈ rows.max?, ExactExpress ef (m + 1) e o)
  | .injection d _ b0 f0 i0 => (f = f0 ∨ d.length = 1) ∧ (b = b0 ∨ columns.length ≤ 1) ∧ i = i0
  | .pumping _ n ef i0 => i = i0 ∨ ExactPumps ef n e

theorem exactExpress_zero (ef : Bool) (n o : ℕ) : ExactExpress ef n 0 o := by
  have h : effectiveExpress 0 (n + o) = n + o := rfl
  unfold ExactExpress
  rw [h, if_neg (by omega)]

theorem exactPumps_zero (ef : Bool) (n : ℕ) : ExactPumps ef n 0 := by
  have h : effectiveExpress 0 n = n := rfl
  unfold ExactPumps
  rw [h, if_neg (by omega)]

theorem genClockSequence_one (f g : Bool) : (genClockSequence 1 1 f : List (List (Phase K))) = genClockSequence 1 1 g := by
  have h : ∀ f, (genPhase 1 f 0 0 : Phase K) = genPhase 1 false 0 0 := by
    intro f
    unfold genPhase
    have h1 : ∀ g : Bool, (if g = true ∧ ((0 : ℕ) : ℤ) > highPhase 1 0 then (1 : ℤ) else 0) = 0 := fun g =>
      if_neg (by rintro ⟨-, h⟩; exact absurd h (by decide))
    simp only [h1]
  simp only [genClockSequence, List.range_one, List.map_cons, List.map_nil, h f, h g]

theorem maxMultiplier_exact {N e : ℕ} (h : e ∣ N) (i j : Bool) :
    (maxMultiplier i N e : K) = maxMultiplier j N e := by
  have key : ∀ i, (maxMultiplier i N e : K) = (N : K) / (e : K) := by
    intro i
    cases i with
    | false => rfl
    | true =>
      obtain ⟨q, rfl⟩ := h
      rcases Nat.eq_zero_or_pos e with rfl | he
      · simp [maxMultiplier]
      · have : (e * q) ⌈/⌉ e = q := by
          rw [Nat.ceilDiv_eq_add_pred_div]
          apply Nat.div_eq_of_lt_le
          · rw [Nat.mul_comm]; omega
          · rw [Nat.add_mul, Nat.mul_comm q]; omega
        have h0 : (e : K) ≠ 0 := by exact_mod_cast he.ne'
        simp only [maxMultiplier, if_true, this, Nat.cast_mul]
        field_simp
  rw [key i, key j]

theorem expressFull_exact {ef : Bool} {n e o : ℕ} (h : ExactExpress ef n e o) (i j : Bool) :
    (expressFull ef i n e o : Mat K) = expressFull ef j n e o := by
  have hb : (expressBase i ((if ef = true ∧ effectiveExpress e (n + o) < n then n - 1 else n) + o)
      (effectiveExpress e (n + o)) : Mat K) =
      expressBase j ((if ef = true ∧ effectiveExpress e (n + o) < n then n - 1 else n) + o) (effectiveExpress e (n + o)) := by
    unfold expressBase
    rw [maxMultiplier_exact h i j]
  unfold expressFull
  simp only
  rw [hb]

theorem roeExpress_exact {ef : Bool} {rows : List ℕ} {e o : ℕ} (h : ∀ m ∈ rows.max?, ExactExpress ef (m + 1) e o)
    (tw : Option (List ℕ)) (i j : Bool) :
    (roeExpress ef i rows e o tw : Except Err (Mat K × Mat Bool)) = roeExpress ef j rows e o tw := by
  unfold roeExpress nPixelsOfWindow
  cases hm : rows.max? with
  | none => rfl
  | some m =>
    simp only [bind_ok]
    rw [expressFull_exact (h m hm) i j]

theorem roundHalfEven_exact (e q : ℕ) (he : 0 < e) : roundHalfEven (e * q) e = q := by
  unfold roundHalfEven
  rw [Nat.mul_mod_right, Nat.mul_div_cancel_left _ he]
  simp [he]

theorem pumpMultipliers_exact {ef : Bool} {n e : ℕ} (h : ExactPumps ef n e) (i j : Bool) :
    (pumpMultipliers ef i n e : Except Err (List K)) = pumpMultipliers ef j n e := by
  have key : ∀ i, (pumpMultipliers ef i n e : Except Err (List K)) = pumpMultipliers ef false n e := by
    intro i
    cases i with
    | false => rfl
    | true =>
      unfold pumpMultipliers
      unfold ExactPumps at h
      simp only
      rcases Nat.eq_zero_or_pos (effectiveExpress e n) with h0 | hpos
      · rw [if_pos h0, if_pos h0]
      · rw [if_neg hpos.ne', if_neg hpos.ne']
        generalize effectiveExpress e n = E at h hpos ⊢
        have hK : (E : K) ≠ 0 := by exact_mod_cast hpos.ne'
        simp only [if_true, Bool.false_eq_true, if_false]
        have hmod : ∀ (l : List ℤ) (k : ℕ), l.modify k (fun x => x + 0) = l := by
          intro l k
          have : (fun x : ℤ => x + 0) = id := by funext x; simp
          rw [this, List.modify_id]
        split
        · rename_i hc
          rw [if_pos hc] at h
          obtain ⟨q, hq⟩ := h
          have hn : n = E * q + 1 := by omega
          have hs : ((1 : ℤ) :: List.replicate E ((q : ℕ) : ℤ)).sum = n := by
            rw [hn]
            simp [List.sum_replicate]
            ring
          rw [hq, roundHalfEven_exact E q hpos, hs, sub_self, hmod]
          have : ((E * q : ℕ) : K) / (E : K) = q := by
            push_cast
            field_simp
          rw [this]
          simp
        · rename_i hc
          rw [if_neg hc] at h
          obtain ⟨q, hq⟩ := h
          have hs : (List.replicate E ((q : ℕ) : ℤ)).sum = n := by
            rw [hq]
            simp [List.sum_replicate]
          have hr : roundHalfEven n E = q := by rw [hq]; exact roundHalfEven_exact E q hpos
          rw [hr, hs, sub_self, hmod]
          have : (n : K) / (E : K) = q := by
            rw [hq]
            push_cast
            field_simp
          rw [this]
          simp
  rw [key i, key j]

theorem Roe.set_express {f b i : Bool} {e o : ℕ} {rows columns : List ℕ} {r : Roe K} (h : r.Idle f b i e o rows columns)
    (tw : Option (List ℕ)) :
    (r.set f b i).express rows e o tw = (r.express rows e o tw).map fun x => (x.1, x.2.1, x.2.2.set f b i) := by
  cases r with
  | standard d ef b0 f0 i0 =>
    have : (roeExpress ef i rows e o tw : Except Err (Mat K × Mat Bool)) = roeExpress ef i0 rows e o tw := by
      rcases h.2.2 with rfl | h
      · rfl
      · exact roeExpress_exact h tw i i0
    simp only [Roe.set, Roe.express, this]
    cases (roeExpress ef i0 rows e o tw : Except Err (Mat K × Mat Bool)) <;> rfl
  | injection d n b0 f0 i0 =>
    obtain ⟨-, -, rfl⟩ := h
    simp only [Roe.set, Roe.express]
    cases (injectionExpress i n rows e o tw : Except Err ((Mat K × Mat Bool) × ℕ)) <;> rfl
  | pumping d n ef i0 =>
    have : (pumpingExpress ef i n rows.length e : Except Err (Mat K × Mat Bool)) = pumpingExpress ef i0 n rows.length e := by
      rcases h with rfl | h
      · rfl
      · unfold pumpingExpress
        rw [pumpMultipliers_exact h i i0]
    simp only [Roe.set, Roe.express, this]
    cases (pumpingExpress ef i0 n rows.length e : Except Err (Mat K × Mat Bool)) <;> rfl

theorem Roe.set_save (f b i : Bool) (r : Roe K) (m : Mat K) : (r.set f b i).save m = r.save m := by
  cases r <;> rfl

theorem Roe.set_dwell (f b i : Bool) (r : Roe K) : (r.set f b i).dwell = r.dwell := by
  cases r <;> rfl

theorem Roe.set_isPumping (f b i : Bool) (r : Roe K) : (r.set f b i).isPumping = r.isPumping := by
  cases r <;> rfl

theorem Roe.set_clockSequence {f b i : Bool} {e o : ℕ} {rows columns : List ℕ} {r : Roe K}
    (h : r.Idle f b i e o rows columns) : (r.set f b i).clockSequence = r.clockSequence := by
  cases r with
  | standard d ef b0 f0 i0 =>
    simp only [Roe.set, Roe.clockSequence, Roe.nSteps, Roe.nPhases, Roe.force, Roe.dwell]
    rcases h.1 with rfl | h
    · rfl
    · rw [h]; exact genClockSequence_one f f0
  | injection d n b0 f0 i0 =>
    simp only [Roe.set, Roe.clockSequence, Roe.nSteps, Roe.nPhases, Roe.force, Roe.dwell]
    rcases h.1 with rfl | h
    · rfl
    · rw [h]; exact genClockSequence_one f f0
  | pumping d n ef i0 => rfl

theorem Roe.set_emptyBetween {f b i : Bool} {e o : ℕ} {rows columns : List ℕ} {r : Roe K}
    (h : r.Idle f b i e o rows columns) : (r.set f b i).emptyBetween = r.emptyBetween ∨ columns.length ≤ 1 := by
  cases r with
  | standard d ef b0 f0 i0 => exact h.2.1
  | injection d n b0 f0 i0 => exact h.2.1
  | pumping d n ef i0 => exact .inl rfl

theorem Roe.Idle.next {f b i : Bool} {e o : ℕ} {rows columns : List ℕ} {r r' : Roe K} {m : Mat K} {mon : Mat Bool}
    {w : List ℕ} {tw : Option (List ℕ)} (h : r.Idle f b i e o rows columns) (hx : r.express w e o tw = .ok (m, mon, r')) :
    r'.Idle f b i e o rows columns := by
  cases r with
  | standard d ef b0 f0 i0 =>
    unfold Roe.express at hx
    obtain ⟨⟨m', mon'⟩, -, hx⟩ := bind_eq_ok hx
    injection hx with hx
    injection hx with _ hx
    injection hx with _ hx
    rw [← hx]; exact h
  | injection d n b0 f0 i0 =>
    unfold Roe.express at hx
    obtain ⟨⟨⟨m', mon'⟩, n'⟩, -, hx⟩ := bind_eq_ok hx
    injection hx with hx
    injection hx with _ hx
    injection hx with _ hx
    rw [← hx]; exact h
  | pumping d n ef i0 =>
    unfold Roe.express at hx
    obtain ⟨⟨m', mon'⟩, -, hx⟩ := bind_eq_ok hx
    injection hx with hx
    injection hx with _ hx
    injection hx with _ hx
    rw [← hx]; exact h

theorem clockLoops_between {S : Type} (sys : TrapSys K S) (cfg : ClockCfg K) (b : Bool) (columns : List ℕ)
    (h : b = cfg.emptyBetween ∨ columns.length ≤ 1) (st : Image K × S) :
    (clockLoops sys { cfg with emptyBetween := b } columns st).map Prod.fst = (clockLoops sys cfg columns st).map Prod.fst := by
  rcases h with rfl | h
  · rfl
  · match columns, h with
    | [], _ => rfl
    | [c], _ =>
      rw [clockLoops_single, clockLoops_single]
      have hb : ∀ st k, expressBody sys { cfg with emptyBetween := b } c st k = expressBody sys cfg c st k := fun _ _ => rfl
      unfold columnBody
      simp only [funext fun st => funext fun k => hb st k]
      cases (List.range cfg.expr.nr).foldlM (expressBody sys cfg c) st <;> rfl

theorem clockCfg_set {f b i : Bool} {e o : ℕ} {rows columns : List ℕ} {r : Roe K} (h : r.Idle f b i e o rows columns)
    (ccd : CcdView K) (tw : Option (List ℕ)) :
    clockCfg (r.set f b i) ccd e o rows tw = (clockCfg r ccd e o rows tw).map fun x =>
      ({ x.1 with emptyBetween := (r.set f b i).emptyBetween }, x.2.set f b i) := by
  unfold clockCfg
  rw [Roe.set_express h, Roe.set_clockSequence h, Roe.set_dwell]
  cases r.express rows e o tw with
  | error err => rfl
  | ok x =>
    simp only [Except.map, bind_ok, Roe.set_save]
    cases r.save x.1 <;> rfl

end settings

/-- **C87** for one direction of clocking: the same image, or the same exception. -/
theorem C87_settings {f b i : Bool} {e o : ℕ} {rows columns : List ℕ} {r : Roe ℝ} (h : r.Idle f b i e o rows columns)
    (img : Image ℝ) (ccd : Option CCD) (traps : PyTraps) (tw : Option (List ℕ)) :
    clockChargePy img ccd (r.set f b i) traps e o rows columns tw =
      (clockChargePy img ccd r traps e o rows columns tw).map fun x => (x.1, x.2.set f b i) := by
  unfold clockChargePy
  cases ccd with
  | none =>
    simp only
    rw [Roe.set_express h]
    cases r.express rows e o tw with
    | error err => rfl
    | ok x =>
      simp only [Except.map, bind_ok, Roe.set_save]
      cases r.save x.1 <;> rfl
  | some c =>
    simp only
    rw [clockCfg_set h]
    cases hx : clockCfg r c.view e o rows tw with
    | error err => rfl
    | ok x =>
      have hb : x.1.emptyBetween = r.emptyBetween := by
        unfold clockCfg at hx
        obtain ⟨y, -, hx⟩ := bind_eq_ok hx
        obtain ⟨z, -, hx⟩ := bind_eq_ok hx
        injection hx with hx
        rw [← hx]
      have hacc : (r.set f b i).accessed = r.accessed := by unfold Roe.accessed; rw [Roe.set_clockSequence h]
      have hmax : ∀ cfg : ClockCfg ℝ, maxNTransfers (r.set f b i) cfg = maxNTransfers r cfg := by
        intro cfg; unfold maxNTransfers; rw [Roe.set_isPumping]
      simp only [Except.map, bind_ok, hacc, hmax]
      change (allTrapManager traps c.fractions (maxNTransfers r x.1) >>= _) = _
      cases allTrapManager traps c.fractions (maxNTransfers r x.1) with
      | error err => rfl
      | ok a =>
        simp only [bind_ok]
        have key := clockLoops_between (atmSys c.view.fill) x.1 (r.set f b i).emptyBetween columns
          (by rw [hb]; exact Roe.set_emptyBetween h) (img.pad (nPadding r.accessed), a)
        revert key
        cases clockLoops (atmSys c.view.fill) { x.1 with emptyBetween := (r.set f b i).emptyBetween } columns
            (img.pad (nPadding r.accessed), a) with
        | error err =>
          cases clockLoops (atmSys c.view.fill) x.1 columns (img.pad (nPadding r.accessed), a) with
          | error err' => intro key; injection key with key; subst key; rfl
          | ok y => intro key; cases key
        | ok y =>
          cases clockLoops (atmSys c.view.fill) x.1 columns (img.pad (nPadding r.accessed), a) with
          | error err' => intro key; cases key
          | ok z =>
            intro key
            injection key with key
            simp only [bind_ok, key]

/-! ## `add_cti` and `remove_cti` -/

/-- The columns of the serial direction (main.py:165-175). -/
def serialWindow (img : Image ℝ) (pw : Window) (timeWindow : Option (List ℕ)) (offset : ℕ) : Except Err (List ℕ) :=
  match timeWindow with
  | none => .ok (pw.resolve img.nr)
  | some tw => serialColumns (pw.resolve img.nr) tw offset

theorem addCtiPy_windows (img : Image ℝ) (par ser : PyDirection) (pw sw : Window) (tw : Option (List ℕ)) :
    addCtiPy img par pw ser sw tw =
      serialWindow img pw tw par.offset >>= fun serCols =>
        par.clock img (pw.resolve img.nr) (sw.resolve img.nc) (some (tw.getD (List.range (img.nr + par.offset)))) >>= fun y =>
          ser.clock y.1.transpose (sw.resolve img.nc) serCols none >>= fun z =>
            .ok (z.1.transpose, y.2, z.2) := by
  unfold addCtiPy serialWindow PyDirection.clock
  obtain ⟨c, r, t, e, o⟩ := par
  obtain ⟨c', r', t', e', o'⟩ := ser
  cases tw with
  | none =>
    cases t with
    | none => cases t' <;> rfl
    | some t =>
      simp only [Option.getD_none, bind_ok]
      cases clockChargePy img c (r.getD Roe.default) t e o (pw.resolve img.nr) (sw.resolve img.nc)
        (some (List.range (img.nr + o))) with
      | error err => rfl
      | ok x => cases t' <;> rfl
  | some tw =>
    simp only [Option.getD_some]
    cases serialColumns (pw.resolve img.nr) tw o with
    | error err => rfl
    | ok cols =>
      cases t with
      | none => cases t' <;> rfl
      | some t =>
        simp only [bind_ok]
        cases clockChargePy img c (r.getD Roe.default) t e o (pw.resolve img.nr) (sw.resolve img.nc) (some tw) with
        | error err => rfl
        | ok x => cases t' <;> rfl

/-- The direction with bulk traps, another blooming level and other settings of the readout, if one is given. -/
def PyDirection.restyle (d : PyDirection) (bl : CCD → List Bloom) (f b i : Bool) : PyDirection :=
  ⟨d.ccd.map fun c => c.withBloom (bl c), d.roe.map (Roe.set f b i), d.traps.map PyTraps.bulk, d.express, d.offset⟩

/-- The readout afterwards: that of the caller with the other settings, or the default one. -/
def Roe.setLike (r0 : Option (Roe ℝ)) (f b i : Bool) (r : Roe ℝ) : Roe ℝ :=
  match r0 with
  | none => r
  | some _ => r.set f b i

theorem PyDirection.restyle_clock (d : PyDirection) (bl : CCD → List Bloom) (f b i : Bool) (img : Image ℝ)
    (rows columns : List ℕ) (tw : Option (List ℕ)) (h : ∀ r ∈ d.roe, r.Idle f b i d.express d.offset rows columns) :
    (d.restyle bl f b i).clock img rows columns tw =
      (d.clock img rows columns tw).map fun x => (x.1, Roe.setLike d.roe f b i x.2) := by
  obtain ⟨c, r, t, e, o⟩ := d
  unfold PyDirection.clock PyDirection.restyle
  cases t with
  | none => cases r <;> rfl
  | some t =>
    simp only [Option.map_some]
    rw [C87_surface]
    cases r with
    | none =>
      simp only [Option.map_none, Option.getD_none, Roe.setLike]
      cases clockChargePy img c Roe.default t e o rows columns tw <;> rfl
    | some r =>
      simp only [Option.map_some, Option.getD_some, Roe.setLike]
      exact C87_settings (h r rfl) img c t tw

theorem PyDirection.clock_idle {d : PyDirection} {img out : Image ℝ} {rows columns : List ℕ} {tw : Option (List ℕ)}
    {r' : Roe ℝ} (h : d.clock img rows columns tw = .ok (out, r')) {f b i : Bool} {rows' columns' : List ℕ}
    (hr : ∀ r ∈ d.roe, r.Idle f b i d.express d.offset rows' columns') :
    (out.nr = img.nr ∧ out.nc = img.nc) ∧
      ∀ r ∈ d.roe.map fun _ => r', r.Idle f b i d.express d.offset rows' columns' := by
  refine ⟨(PyDirection.clock_shape h).1, ?_⟩
  obtain ⟨c, r0, t, e, o⟩ := d
  cases r0 with
  | none => intro r hm; cases hm
  | some r0 =>
    intro r hm
    obtain rfl : r' = r := Option.some.inj hm
    unfold PyDirection.clock at h
    cases t with
    | none =>
      injection h with h
      injection h with _ h
      rw [← h]
      exact hr r0 rfl
    | some t =>
      obtain ⟨-, m, mon, h2⟩ := clockChargePy_shape h
      exact (hr r0 rfl).next h2

/-- The settings of both directions are idle for images of this shape. -/
def IdleSettings (par ser : PyDirection) (pf pb pi sf sb si : Bool) (img : Image ℝ) (pw sw : Window)
    (tw : Option (List ℕ)) (rp rs : Option (Roe ℝ)) : Prop :=
  (∀ r ∈ rp, r.Idle pf pb pi par.express par.offset (pw.resolve img.nr) (sw.resolve img.nc)) ∧
  ∀ r ∈ rs, ∀ cols, serialWindow img pw tw par.offset = .ok cols →
    r.Idle sf sb si ser.express ser.offset (sw.resolve img.nc) cols

theorem restyle_add (img : Image ℝ) (par ser : PyDirection) (bl bl' : CCD → List Bloom) (pf pb pi sf sb si : Bool)
    (pw sw : Window) (tw : Option (List ℕ)) (h : IdleSettings par ser pf pb pi sf sb si img pw sw tw par.roe ser.roe) :
    addCtiPy img (par.restyle bl pf pb pi) pw (ser.restyle bl' sf sb si) sw tw =
      (addCtiPy img par pw ser sw tw).map fun x =>
        (x.1, Roe.setLike par.roe pf pb pi x.2.1, Roe.setLike ser.roe sf sb si x.2.2) := by
  rw [addCtiPy_windows, addCtiPy_windows, show (par.restyle bl pf pb pi).offset = par.offset from rfl]
  cases hc : serialWindow img pw tw par.offset with
  | error err => rfl
  | ok cols =>
    simp only [bind_ok]
    rw [PyDirection.restyle_clock par bl pf pb pi img _ _ _ h.1]
    cases par.clock img (pw.resolve img.nr) (sw.resolve img.nc) (some (tw.getD (List.range (img.nr + par.offset)))) with
    | error err => rfl
    | ok y =>
      simp only [Except.map, bind_ok]
      rw [PyDirection.restyle_clock ser bl' sf sb si _ _ _ _ fun r hr => h.2 r hr cols hc]
      cases ser.clock y.1.transpose (sw.resolve img.nc) cols none <;> rfl

/-- **C87** for `add_cti`: the same image, or the same exception. -/
theorem C87_add_cti (img : Image ℝ) (par ser : PyDirection) (bl bl' : CCD → List Bloom) (pf pb pi sf sb si : Bool)
    (pw sw : Window) (tw : Option (List ℕ)) (h : IdleSettings par ser pf pb pi sf sb si img pw sw tw par.roe ser.roe) :
    (addCtiPy img (par.restyle bl pf pb pi) pw (ser.restyle bl' sf sb si) sw tw).map Prod.fst =
      (addCtiPy img par pw ser sw tw).map Prod.fst := by
  rw [restyle_add img par ser bl bl' pf pb pi sf sb si pw sw tw h]
  cases addCtiPy img par pw ser sw tw <;> rfl

/-- **C87** for `remove_cti`: the same image, or the same exception. -/
theorem C87_remove_cti (img : Image ℝ) (n : ℕ) (par ser : PyDirection) (bl bl' : CCD → List Bloom)
    (pf pb pi sf sb si : Bool) (pw sw : Window) (tw : Option (List ℕ))
    (h : IdleSettings par ser pf pb pi sf sb si img pw sw tw par.roe ser.roe) :
    (removeCtiPy img n (par.restyle bl pf pb pi) pw (ser.restyle bl' sf sb si) sw tw).map Prod.fst =
      (removeCtiPy img n par pw ser sw tw).map Prod.fst := by
  unfold removeCtiPy
  have key : ∀ (m : ℕ) (cur : Image ℝ), cur.nr = img.nr → cur.nc = img.nc → ∀ s : Option (Roe ℝ) × Option (Roe ℝ),
      IdleSettings par ser pf pb pi sf sb si img pw sw tw s.1 s.2 →
      (removeIter (fun cur s => do
          let (out, rp, rs) ← addCtiPy cur { par.restyle bl pf pb pi with roe := s.1 } pw
            { ser.restyle bl' sf sb si with roe := s.2 } sw tw
          .ok (out, s.1.map fun _ => rp, s.2.map fun _ => rs)) img m
          (cur, s.1.map (Roe.set pf pb pi), s.2.map (Roe.set sf sb si))).map Prod.fst =
        (removeIter (fun cur s => do
          let (out, rp, rs) ← addCtiPy cur { par with roe := s.1 } pw { ser with roe := s.2 } sw tw
          .ok (out, s.1.map fun _ => rp, s.2.map fun _ => rs)) img m (cur, s)).map Prod.fst := by
    intro m
    induction m with
    | zero => intros; rfl
    | succ m ih =>
      intro cur h1 h2 s q
      have q' : IdleSettings { par with roe := s.1 } { ser with roe := s.2 } pf pb pi sf sb si cur pw sw tw s.1 s.2 := by
        unfold IdleSettings serialWindow at q ⊢
        rw [h1, h2]
        exact q
      have hadd := restyle_add cur { par with roe := s.1 } { ser with roe := s.2 } bl bl' pf pb pi sf sb si pw sw tw q'
      unfold removeIter
      simp only
      change ((addCtiPy cur (PyDirection.restyle { par with roe := s.1 } bl pf pb pi) pw
        (PyDirection.restyle { ser with roe := s.2 } bl' sf sb si) sw tw >>= _) >>= _).map Prod.fst = _
      rw [hadd]
      cases hx : addCtiPy cur { par with roe := s.1 } pw { ser with roe := s.2 } sw tw with
      | error err => rfl
      | ok x =>
        obtain ⟨out, rp, rs⟩ := x
        rw [addCtiPy_windows] at hx
        obtain ⟨cols, g0, hx⟩ := bind_eq_ok hx
        obtain ⟨⟨mid, rp'⟩, g1, hx⟩ := bind_eq_ok hx
        obtain ⟨⟨fin, rs'⟩, g2, hx⟩ := bind_eq_ok hx
        injection hx with hx
        injection hx with _ hx
        injection hx with e1 e2
        subst e1 e2
        have i1 := (PyDirection.clock_idle g1 (rows' := pw.resolve img.nr) (columns' := sw.resolve img.nc) q.1).2
        have i2 : ∀ cols', serialWindow img pw tw par.offset = .ok cols' →
            ∀ r ∈ s.2.map fun _ => rs', r.Idle sf sb si ser.express ser.offset (sw.resolve img.nc) cols' := fun cols' hc =>
          (PyDirection.clock_idle g2 (rows' := sw.resolve img.nc) (columns' := cols') fun r hr => q.2 r hr cols' hc).2
        have hl : ∀ (r0 : Option (Roe ℝ)) (f b i : Bool) (r' : Roe ℝ),
            ((r0.map (Roe.set f b i)).map fun _ => Roe.setLike r0 f b i r') = (r0.map fun _ => r').map (Roe.set f b i) := by
          intro r0 f b i r'
          cases r0 <;> rfl
        have hm := (ih { cur with px := fun r c => cur.px r c + (img.px r c - out.px r c) } h1 h2
          (s.1.map fun _ => rp', s.2.map fun _ => rs') ⟨i1, fun r hr cols' hc => i2 cols' hc r hr⟩)
        simp only [Except.map, bind_ok, hl] at hm ⊢
        exact hm
  exact key n img rfl rfl (par.roe, ser.roe) h

/-! ## Examples -/

/-- Surface traps, alone and in groups. -/
example : (PyTraps.list [.group [.trap 5 2 1 true, .instant 3 1 true], .trap (.trap 1 1 0 true)]).bulk =
    .list [.group [.trap 5 2 1 false, .instant 3 1 false], .trap (.trap 1 1 0 false)] := rfl

/-- One dwell time and one column: the first two settings have no effect. -/
example (d : ℝ) (ef b0 f0 i0 f b : Bool) (e o c : ℕ) (rows : List ℕ) :
    (Roe.standard [d] ef b0 f0 i0).Idle f b i0 e o rows [c] := ⟨.inr rfl, .inr (by simp), .inl rfl⟩

/-- No effect of the third with `express = 0`. -/
example (dw : List ℝ) (ef b f i0 i : Bool) (o : ℕ) (rows columns : List ℕ) :
    (Roe.standard dw ef b f i0).Idle f b i 0 o rows columns := ⟨.inl rfl, .inl rfl, .inr fun m _ => exactExpress_zero ef _ o⟩

/-- No effect of the third when 12 transfers are made in 4 passes. -/
example (dw : List ℝ) (b f i0 i : Bool) (columns : List ℕ) :
    (Roe.standard dw false b f i0).Idle f b i 4 0 (List.range 12) columns := by
  refine ⟨.inl rfl, .inl rfl, .inr fun m hm => ?_⟩
  have h : (List.range 12).max? = some 11 := by decide
  rw [h] at hm
  obtain rfl : 11 = m := Option.some.inj hm
  exact ⟨3, by decide⟩

/-- No effect of the third when 21 pumps are made as one and 4 passes of 5. -/
example (dw : List ℝ) (b f i0 i : Bool) (rows columns : List ℕ) :
    (Roe.pumping dw 21 true i0).Idle f b i 4 0 rows columns := .inr ⟨5, by decide⟩

/-- **C87**: outside these cases they matter: with three dwell times, two columns, or three transfers in two passes. -/
theorem C87_others :
    (addCti (exImg 3 2 [[50, 0], [80, 40], [0, 0]]) (some ⟨exCcd3, .standard [1, 1, 1] true true false false, [exGroup], 0, 0⟩)
        0 .all none .all none).map (fun x => x.1.rows) ≠
      (addCti (exImg 3 2 [[50, 0], [80, 40], [0, 0]]) (some ⟨exCcd3, .standard [1, 1, 1] true true true false, [exGroup], 0, 0⟩)
        0 .all none .all none).map (fun x => x.1.rows) ∧
    (addCti (exImg 3 2 [[50, 0], [80, 40], [0, 0]]) (some ⟨exCcd, .standard [1] true false true false, [exGroup], 0, 0⟩)
        0 .all none .all none).map (fun x => x.1.rows) ≠
      (addCti (exImg 3 2 [[50, 0], [80, 40], [0, 0]]) (some ⟨exCcd, .standard [1] true true true false, [exGroup], 0, 0⟩)
        0 .all none .all none).map (fun x => x.1.rows) ∧
    (addCti (exImg 3 2 [[50, 0], [80, 40], [0, 0]]) (some ⟨exCcd, .standard [1] false true true true, [exGroup], 2, 0⟩)
        0 .all none .all none).map (fun x => x.1.rows) ≠
      (addCti (exImg 3 2 [[50, 0], [80, 40], [0, 0]]) (some ⟨exCcd, .standard [1] false true true false, [exGroup], 2, 0⟩)
        0 .all none .all none).map (fun x => x.1.rows) := by decide +kernel

end Arctic
