import Verif.Lemmas.Scale
import Verif.Props.EndToEnd
import Verif.Props.ClockExamples
import Mathlib.MeasureTheory.Integral.IntegralEqImproper

/-!
# C64, C65 — units of charge and time
-/

set_option linter.unusedSectionVars false
set_option linter.unusedVariables false

namespace Arctic

section
variable {K : Type} [Field K] [LinearOrder K] [IsStrictOrderedRing K]

theorem Roe.scaleTime_one (r : Roe K) : r.scaleTime 1 = r := by
  cases r <;> simp [Roe.scaleTime]

theorem kindScaled_one {s : ℕ} (k : Kind K s) : KindScaled 1 k k := by
  cases k with
  | slow p => exact .slow p p fun t => by rw [one_mul]
  | instant p => exact .instant p p fun t => by rw [one_mul]
  | trackTime c => exact .trackTime c rfl

theorem groupScaled_charge (lam : K) (gs : List (Group K)) :
    List.Forall₂ (GroupScaled lam 1) gs (gs.map (Group.scaleCharge lam)) := by
  rw [List.forall₂_map_right_iff, List.forall₂_same]
  intro g _
  obtain ⟨s, dens, k⟩ := g
  exact .mk dens k k (kindScaled_one k)

/-- **C64** for clocking in one direction: the image, the densities and the argument of the filling function in another
unit of charge give the result in the other unit (or the same exception). -/
theorem C64_clock {lam : K} (hlam : 0 < lam) (img : Image K) (ccd : CcdView K) (roe : Roe K) (groups : List (Group K))
    (e o : ℕ) (rows columns : List ℕ) (tw : Option (List ℕ)) :
    clockCharge (img.scale lam) (ccd.scaleCharge lam) roe (groups.map (Group.scaleCharge lam)) e o rows columns tw =
      (clockCharge img ccd roe groups e o rows columns tw).map fun x => (x.1.scale lam, x.2) := by
  have := clockCharge_scaled hlam one_pos img (ccd := ccd) (ccd' := ccd.scaleCharge lam) roe rfl
    (fun ph n => by
      change ccd.fill ph (lam * n / lam) = _
      rw [mul_div_cancel_left₀ _ hlam.ne']) (groupScaled_charge lam groups) e o rows columns tw
  simpa only [Roe.scaleTime_one] using this

/-- A group whose release and capture are the same in another unit of time: with `p'` for `p`, `p' (mu * t) = p t`. -/
abbrev Group.Retimed (mu : K) : Group K → Group K → Prop := fun g g' => GroupScaled 1 mu g g'

/-- **C65**: dwell times and trap laws in another unit of time give the same image. -/
theorem C65_clock {mu : K} (hmu : 0 < mu) (img : Image K) (ccd : CcdView K) (roe : Roe K) {groups groups' : List (Group K)}
    (hg : List.Forall₂ (Group.Retimed mu) groups groups') (e o : ℕ) (rows columns : List ℕ) (tw : Option (List ℕ)) :
    clockCharge img ccd (roe.scaleTime mu) groups' e o rows columns tw =
      (clockCharge img ccd roe groups e o rows columns tw).map fun x => (x.1, x.2.scaleTime mu) := by
  have := clockCharge_scaled one_pos hmu img (ccd := ccd) (ccd' := ccd) roe rfl (fun ph n => by rw [one_mul]) hg e o rows
    columns tw
  have e1 : ∀ i : Image K, i.scale 1 = i := fun i => by unfold Image.scale; simp only [one_mul]
  simpa only [e1] using this

/-- Results in another unit of charge. -/
def scaleResult (lam : K) (x : Image K × Option (Direction K) × Option (Direction K)) :
    Image K × Option (Direction K) × Option (Direction K) :=
  (x.1.scale lam, x.2.1.map (Direction.scaleCharge lam), x.2.2.map (Direction.scaleCharge lam))

/-- **C64** for `add_cti`. -/
theorem C64_add_cti {lam : K} (hlam : 0 < lam) (img : Image K) (par ser : Option (Direction K)) (o : ℕ)
    (pw sw : Window) (tw : Option (List ℕ)) :
    addCti (img.scale lam) (par.map (Direction.scaleCharge lam)) o pw (ser.map (Direction.scaleCharge lam)) sw tw =
      (addCti img par o pw ser sw tw).map (scaleResult lam) := by
  rw [addCti_halves, addCti_halves]
  suffices key : ∀ (x : Except Err (List ℕ)) (t : List ℕ),
      (x >>= fun sc => bothHalves (img.scale lam) (par.map (Direction.scaleCharge lam))
        (ser.map (Direction.scaleCharge lam)) o (pw.resolve img.nr) (sw.resolve img.nc) t sc) =
      (x >>= fun sc => bothHalves img par ser o (pw.resolve img.nr) (sw.resolve img.nc) t sc).map (scaleResult lam)
    from key _ _
  intro x t
  cases x with
  | error e => rfl
  | ok sc =>
    simp only [bind_ok]
    have hser : ∀ (cols sc : List ℕ) (a : Image K) (p : Option (Direction K)),
        serialHalf (ser.map (Direction.scaleCharge lam)) cols sc (a.scale lam, p.map (Direction.scaleCharge lam)) =
          (serialHalf ser cols sc (a, p)).map (scaleResult lam) := by
      intro cols sc a p
      cases ser with
      | none => rfl
      | some d =>
        simp only [serialHalf, Option.map_some, Image.scale_transpose, Direction.scaleCharge, C64_clock hlam]
        cases clockCharge a.transpose d.ccd d.roe d.groups d.express d.offset cols sc none with
        | error e => rfl
        | ok x => rfl
    unfold bothHalves
    cases par with
    | none => exact hser _ _ _ none
    | some d =>
      simp only [Option.map_some, Direction.scaleCharge, C64_clock hlam]
      cases clockCharge img d.ccd d.roe d.groups d.express o (pw.resolve img.nr) (sw.resolve img.nc) (some t) with
      | error e => rfl
      | ok x => exact hser (sw.resolve img.nc) sc x.1 (some { d with roe := x.2 })

theorem removeIter_scale {S S' : Type} (lam : K) (g : S → S')
    (add : Image K → S → Except Err (Image K × S)) (add' : Image K → S' → Except Err (Image K × S'))
    (P : S → Prop) (hP : ∀ i s x, P s → add i s = .ok x → P x.2)
    (h : ∀ i s, P s → add' (i.scale lam) (g s) = (add i s).map fun x => (x.1.scale lam, g x.2)) (img : Image K) (n : ℕ) :
    ∀ cur s, P s → removeIter add' (img.scale lam) n (cur.scale lam, g s) =
      (removeIter add img n (cur, s)).map fun x => (x.1.scale lam, g x.2) := by
  induction n with
  | zero => intro cur s _; rfl
  | succ n ih =>
    intro cur s hs
    unfold removeIter
    rw [h _ _ hs]
    cases hadd : add cur s with
    | error e => rfl
    | ok x =>
      have hs' := hP _ _ _ hs hadd
      obtain ⟨added, s'⟩ := x
      simp only [Except.map, bind_ok]
      have e : ({ cur.scale lam with px := fun r c => (cur.scale lam).px r c +
          ((img.scale lam).px r c - (added.scale lam).px r c) } : Image K) =
          ({ cur with px := fun r c => cur.px r c + (img.px r c - added.px r c) } : Image K).scale lam := by
        unfold Image.scale
        simp only
        congr 1
        funext r c
        ring
      rw [e, ih _ _ hs']
      rfl

/-- **C64** for `remove_cti`. -/
theorem C64_remove_cti {lam : K} (hlam : 0 < lam) (img : Image K) (iterations : ℕ) (par ser : Option (Direction K)) (o : ℕ)
    (pw sw : Window) (tw : Option (List ℕ)) :
    removeCti (img.scale lam) iterations (par.map (Direction.scaleCharge lam)) o pw
        (ser.map (Direction.scaleCharge lam)) sw tw =
      (removeCti img iterations par o pw ser sw tw).map (scaleResult lam) := by
  unfold removeCti
  exact removeIter_scale lam (fun s : Option (Direction K) × Option (Direction K) =>
    (s.1.map (Direction.scaleCharge lam), s.2.map (Direction.scaleCharge lam))) _ _ (fun _ => True)
    (fun _ _ _ _ _ => trivial) (fun i s _ => C64_add_cti hlam i s.1 s.2 o pw sw tw) img iterations img (par, ser) trivial

end

/-! ## Python objects -/

noncomputable section

theorem CCD.wellFilling_scale {lam : ℝ} (hlam : 0 < lam) (c : CCD) (ph : ℕ) (n : ℝ) (b : Bool) :
    (c.scaleCharge lam).wellFilling ph (lam * n) b = c.wellFilling ph n b := by
  unfold CCD.wellFilling CCD.scaleCharge
  simp only [mul_eq_zero, hlam.ne', false_or, List.getElem?_map]
  cases c.notchDepth[ph]? with
  | none => rfl
  | some e =>
    cases c.fillPower[ph]? with
    | none => rfl
    | some p =>
      cases c.fullWellDepth[ph]? with
      | none => rfl
      | some f =>
        simp only [Option.map_some, ← mul_sub, mul_eq_zero, hlam.ne', false_or, mul_div_mul_left _ _ hlam.ne']

theorem CCD.view_scale {lam : ℝ} (hlam : 0 < lam) (c : CCD) (ph : ℕ) (n : ℝ) :
    (c.scaleCharge lam).view.fill ph (lam * n) = c.view.fill ph n := by
  unfold CCD.view
  simp only [CCD.wellFilling_scale hlam]

/-- A group of species described by their trap objects, with the class of the first. -/
def objGroup (n : ℕ) (f : Fin n → Trap) (head : Trap) : Group ℝ :=
  { s := n
    dens := fun j => (f j).density
    kind := match head with
      | .continuum .. => .trackTime fun j => (f j).fillFraction
      | .instant .. => .instant fun dwell j => fillFromRelease (f j) dwell
      | .trap .. => .slow fun dwell => fillProbs f dwell }

theorem objGroup_congr {n n' : ℕ} (h : n = n') (f : Fin n → Trap) (f' : Fin n' → Trap)
    (hf : ∀ i (h : i < n) (h' : i < n'), f ⟨i, h⟩ = f' ⟨i, h'⟩) (t : Trap) : objGroup n f t = objGroup n' f' t := by
  subst h
  have : f = f' := funext fun i => hf i i.2 i.2
  rw [this]

theorem groupOfTraps_map (g : Trap → Trap) (t : Trap) (l : List Trap) :
    groupOfTraps ((t :: l).map g) = .ok (objGroup (t :: l).length (fun j => g (t :: l)[j]) (g t)) := by
  change Except.ok (objGroup ((t :: l).map g).length (fun j => ((t :: l).map g)[j]) (g t)) = _
  rw [objGroup_congr (List.length_map g)]
  intro i h h'
  simp only [Fin.getElem_fin, List.getElem_map]

theorem groupOfTraps_cons (t : Trap) (l : List Trap) :
    groupOfTraps (t :: l) = .ok (objGroup (t :: l).length (fun j => (t :: l)[j]) t) := rfl

section trap
variable {lam mu : ℝ}

theorem rescale_density (t : Trap) : (t.rescale lam mu).density = lam * t.density := by cases t <;> rfl

theorem rescale_emission (hmu : 0 < mu) (t : Trap) : (t.rescale lam mu).emissionRate = t.emissionRate / mu := by
  cases t <;> simp only [Trap.rescale, Trap.emissionRate, Trap.releaseTimescale] <;>
    rw [one_div, one_div, mul_inv, mul_comm, div_eq_mul_inv]

theorem rescale_release (hmu : 0 < mu) (t : Trap) (x : ℝ) :
    fillFromRelease (t.rescale lam mu) (mu * x) = fillFromRelease t x := by
  unfold fillFromRelease
  rw [rescale_emission hmu]
  congr 1
  field_simp

theorem infMul_pos {a : ℝ} (ha : 0 < a) (x : ℝ) : ExtF.infMul (a * x) = ExtF.infMul x := by
  unfold ExtF.infMul
  simp only [mul_pos_iff_of_pos_left ha, mul_neg_iff, ha, ha.not_gt, true_and, false_and, or_false]

theorem rescale_capture (hmu : 0 < mu) (t : Trap) :
    (t.captureRate = .inf ∧ (t.rescale lam mu).captureRate = .inf) ∨
      ∃ c : ℝ, t.captureRate = .fin c ∧ (t.rescale lam mu).captureRate = .fin (c / mu) := by
  have h : (t.rescale lam mu).captureTimescale = mu * t.captureTimescale := by
    cases t <;> simp [Trap.rescale, Trap.captureTimescale]
  unfold Trap.captureRate
  rw [h]
  by_cases h0 : t.captureTimescale = 0
  · left
    simp [h0]
  · right
    refine ⟨1 / t.captureTimescale, by rw [if_neg h0], ?_⟩
    rw [if_neg (mul_ne_zero hmu.ne' h0)]
    congr 1
    rw [one_div, one_div, mul_inv, mul_comm, div_eq_mul_inv]

/-- The exponential factor is a time. -/
theorem rescale_factor (hmu : 0 < mu) (t : Trap) (x : ℝ) :
    (t.captureRate = .inf ∧ (t.rescale lam mu).captureRate = .inf ∧
      ((exponentialFactor t x = .fin 0 ∧ exponentialFactor (t.rescale lam mu) (mu * x) = .fin 0) ∨
        exponentialFactor t x = .nan ∧ exponentialFactor (t.rescale lam mu) (mu * x) = .nan)) ∨
      ∃ c : ℝ, t.captureRate = .fin c ∧ (t.rescale lam mu).captureRate = .fin (c / mu) ∧
        ((∃ y : ℝ, exponentialFactor t x = .fin y ∧ exponentialFactor (t.rescale lam mu) (mu * x) = .fin (mu * y)) ∨
          exponentialFactor t x = .nan ∧ exponentialFactor (t.rescale lam mu) (mu * x) = .nan) := by
  rcases rescale_capture (lam := lam) hmu t with ⟨h1, h2⟩ | ⟨c, h1, h2⟩
  · left
    refine ⟨h1, h2, ?_⟩
    unfold exponentialFactor
    rw [h1, h2]
    simp only [ExtF.add, ExtF.neg, ExtF.mul, infMul_pos hmu]
    rcases lt_trichotomy 0 x with h | h | h
    · left
      simp [ExtF.infMul, h, ExtF.neg, ExtF.exp, ExtF.sub, ExtF.add, ExtF.div]
    · right
      simp [ExtF.infMul, ← h, ExtF.neg, ExtF.exp, ExtF.sub, ExtF.add, ExtF.div]
    · right
      simp [ExtF.infMul, h, h.not_gt, ExtF.neg, ExtF.exp, ExtF.sub, ExtF.add, ExtF.div]
  · right
    refine ⟨c, h1, h2, ?_⟩
    unfold exponentialFactor
    rw [h1, h2, rescale_emission hmu]
    simp only [ExtF.add, ExtF.neg, ExtF.mul, ← add_div, ExtF.exp, ExtF.sub]
    have e : -((c + t.emissionRate) / mu) * (mu * x) = -(c + t.emissionRate) * x := by field_simp
    rw [e]
    by_cases h0 : c + t.emissionRate = 0
    · right
      simp [h0, ExtF.div, ExtF.infMul]
    · left
      refine ⟨_, by simp only [ExtF.div, h0, if_false]; rfl, ?_⟩
      simp only [ExtF.div, div_eq_zero_iff, h0, hmu.ne', or_self, if_false]
      congr 1
      field_simp

theorem rescale_probs (hmu : 0 < mu) {s : ℕ} (f : Fin s → Trap) (x : ℝ) :
    fillProbs (fun j => (f j).rescale lam mu) (mu * x) = fillProbs f x := by
  have h1 : ∀ t : Trap, fillFromEmpty (t.rescale lam mu) (mu * x) = fillFromEmpty t x := by
    intro t
    unfold fillFromEmpty
    rcases rescale_factor (lam := lam) hmu t x with ⟨a, b, ⟨c, d⟩ | ⟨c, d⟩⟩ | ⟨c, a, b, ⟨y, d, e⟩ | ⟨d, e⟩⟩
    · rw [a, b, c, d]
    · rw [a, b, c, d]
    · rw [a, b, d, e]
      simp only [ExtF.mul, ExtF.nanToOne]
      congr 1
      field_simp
    · rw [a, b, d, e]
      simp only [ExtF.mul]
  have h2 : ∀ t : Trap, fillFromFull (t.rescale lam mu) (mu * x) = fillFromFull t x := by
    intro t
    unfold fillFromFull
    rw [rescale_emission hmu]
    rcases rescale_factor (lam := lam) hmu t x with ⟨a, b, ⟨c, d⟩ | ⟨c, d⟩⟩ | ⟨c, a, b, ⟨y, d, e⟩ | ⟨d, e⟩⟩
    · rw [c, d]
      simp only [ExtF.mul, mul_zero]
    · rw [c, d]
      simp only [ExtF.mul]
    · rw [d, e]
      simp only [ExtF.mul]
      congr 2
      field_simp
    · rw [d, e]
      simp only [ExtF.mul]
  unfold fillProbs
  simp only [h1, h2, rescale_release hmu]

/-- The fill fraction of a rescaled species at a rescaled time. -/
theorem rescale_fillFraction (hmu : 0 < mu) (t : Trap) (x : ℝ) :
    (t.rescale lam mu).fillFraction (mu * x) = t.fillFraction x := by
  cases t with
  | trap d τ c b =>
    simp only [Trap.rescale, Trap.fillFraction]
    rw [← mul_neg, mul_div_mul_left _ _ hmu.ne']
  | instant d τ b =>
    simp only [Trap.rescale, Trap.fillFraction]
    rw [← mul_neg, mul_div_mul_left _ _ hmu.ne']
  | continuum d dist m σ =>
    simp only [Trap.rescale, Trap.fillFraction]
    have := MeasureTheory.integral_comp_mul_left_Ioi
      (fun τ => dist (τ / mu) (mu * m / mu) σ / mu * Real.exp (-(mu * x) / τ)) 0 hmu
    rw [mul_zero] at this
    have e : ∀ τ, dist (mu * τ / mu) (mu * m / mu) σ / mu * Real.exp (-(mu * x) / (mu * τ)) =
        mu⁻¹ * (dist τ m σ * Real.exp (-x / τ)) := by
      intro τ
      rw [mul_div_cancel_left₀ _ hmu.ne', mul_div_cancel_left₀ _ hmu.ne', ← mul_neg, mul_div_mul_left _ _ hmu.ne']
      ring
    simp only [e] at this
    rw [MeasureTheory.integral_const_mul, smul_eq_mul] at this
    exact (mul_left_cancel₀ (inv_ne_zero hmu.ne') this).symm

end trap

/-! ### `traps` arguments -/

/-- All trap objects of a `traps` argument. -/
def PyTraps.all : PyTraps → List Trap
  | .one t => [t]
  | .list l => l.flatMap fun x => match x with
    | .trap t => [t]
    | .group g => g

/-- Not a lifetime distribution. -/
def Trap.Timescale : Trap → Prop
  | .continuum .. => False
  | _ => True

def outerMap (g : Trap → Trap) : List PyItem ⊕ Trap → List PyItem ⊕ Trap := Sum.map (List.map (PyItem.map g)) g

theorem normal_map (g : Trap → Trap) (traps : PyTraps) :
    (traps.map g).normal = traps.normal.map (List.map (outerMap g)) := by
  cases traps with
  | one t => rfl
  | list l =>
    cases l with
    | nil => rfl
    | cons x l =>
      cases x with
      | trap t => rfl
      | group q =>
        simp only [PyTraps.map, List.map_cons, PyItem.map, PyTraps.normal, Except.map]
        congr 1
        simp only [List.map_map]
        congr 1
        · simp only [outerMap, Sum.map_inl, List.map_map]
          rfl
        · apply List.map_congr_left
          intro x _
          cases x with
          | trap t => rfl
          | group q =>
            simp only [Function.comp, PyItem.map, outerMap, Sum.map_inl, List.map_map]
            rfl

theorem pyGroup_map (g : Trap → Trap) (x : List PyItem ⊕ Trap) : pyGroup (outerMap g x) = (pyGroup x).map (List.map g) := by
  cases x with
  | inr t => rfl
  | inl l =>
    have key : ∀ l : List PyItem, (l.map (PyItem.map g)).mapM (fun (x : PyItem) => match x with
        | .trap t => (.ok t : Except Err Trap)
        | .group _ => .error .attributeError) = (l.mapM fun (x : PyItem) => match x with
        | .trap t => (.ok t : Except Err Trap)
        | .group _ => .error .attributeError).map (List.map g) := by
      intro l
      induction l with
      | nil => rfl
      | cons x l ih =>
        rw [List.map_cons, List.mapM_cons, List.mapM_cons, ih]
        cases x with
        | group q => rfl
        | trap t =>
          simp only [PyItem.map, bind_ok]
          cases (l.mapM fun (x : PyItem) => match x with
            | .trap t => (.ok t : Except Err Trap)
            | .group _ => .error .attributeError) <;> rfl
    cases l with
    | nil => rfl
    | cons x l => exact key (x :: l)

theorem groupOf_scaled {lam mu : ℝ} (hlam : 0 < lam) (hmu : 0 < mu) (l : List Trap)
    (hl : mu = 1 ∨ ∀ t ∈ l, t.Timescale) :
    ExRel (GroupScaled lam mu) (groupOfTraps l) (groupOfTraps (l.map (Trap.rescale lam mu))) := by
  cases l with
  | nil => rfl
  | cons t l =>
    rw [groupOfTraps_map, groupOfTraps_cons]
    generalize hf : (fun j : Fin (t :: l).length => (t :: l)[j]) = f
    have hf' : (fun j : Fin (t :: l).length => ((t :: l)[j]).rescale lam mu) = fun j => (f j).rescale lam mu := by
      rw [← hf]
    rw [hf']
    change GroupScaled lam mu _ _
    unfold objGroup
    simp only [rescale_density]
    cases t with
    | trap d τ c b =>
      exact .mk _ _ _ (.slow _ _ fun x => rescale_probs hmu f x)
    | instant d τ b =>
      exact .mk _ _ _ (.instant _ _ fun x => funext fun j => rescale_release hmu (f j) x)
    | continuum d dist m σ =>
      rcases hl with rfl | hl
      · have e : ∀ j, ((f j).rescale lam 1).fillFraction = (f j).fillFraction := by
          intro j
          funext x
          have := rescale_fillFraction (lam := lam) one_pos (f j) x
          rwa [one_mul] at this
        change GroupScaled lam 1 ⟨_, _, .trackTime fun j => (f j).fillFraction⟩
          ⟨_, _, .trackTime fun j => ((f j).rescale lam 1).fillFraction⟩
        simp only [e]
        exact .mk _ _ _ (.trackTime _ rfl)
      · exact absurd (hl (.continuum d dist m σ) (by simp)) id

theorem mapM_rel {α β γ : Type} {R : α → β → Prop} {T : γ → γ → Prop} (f : α → Except Err γ) (f' : β → Except Err γ)
    {l : List α} {l' : List β} (h : List.Forall₂ R l l') (hf : ∀ a b, R a b → ExRel T (f a) (f' b)) :
    ExRel (List.Forall₂ T) (l.mapM f) (l'.mapM f') := by
  induction h with
  | nil => exact List.Forall₂.nil
  | cons h _ ih =>
    rw [List.mapM_cons, List.mapM_cons]
    refine ExRel.bind (hf _ _ h) fun x y hxy => ?_
    refine ExRel.bind ih fun xs ys hxs => ?_
    exact List.Forall₂.cons hxy hxs

theorem normal_traps {traps : PyTraps} {outer : List (List PyItem ⊕ Trap)} (h : traps.normal = .ok outer)
    {x : List PyItem ⊕ Trap} (hx : x ∈ outer) {l : List Trap} (hl : pyGroup x = .ok l) : ∀ t ∈ l, t ∈ traps.all := by
  have key : ∀ (q : List PyItem) (l : List Trap), (q.mapM fun (x : PyItem) => match x with
        | .trap t => (.ok t : Except Err Trap)
        | .group _ => .error .attributeError) = .ok l → ∀ t ∈ l, PyItem.trap t ∈ q := by
    intro q
    induction q with
    | nil => intro l h t ht; injection h with h; subst h; simp at ht
    | cons y q ih =>
      intro l h t ht
      rw [List.mapM_cons] at h
      obtain ⟨a, h1, h2⟩ := bind_eq_ok h
      obtain ⟨b, h3, h4⟩ := bind_eq_ok h2
      injection h4 with h4
      subst h4
      cases y with
      | group g => cases h1
      | trap t' =>
        injection h1 with h1
        subst h1
        rcases List.mem_cons.1 ht with rfl | ht
        · simp
        · exact List.mem_cons_of_mem _ (ih b h3 t ht)
  have hin : ∀ q, x = .inl q → ∀ t ∈ l, PyItem.trap t ∈ q := by
    rintro q rfl t ht
    cases q with
    | nil => cases hl
    | cons y q => exact key (y :: q) l hl t ht
  intro t ht
  cases x with
  | inr t' => cases hl
  | inl q =>
    have ht' := hin q rfl t ht
    cases traps with
    | one t0 =>
      injection h with h
      subst h
      simp only [List.mem_singleton, Sum.inl.injEq] at hx
      subst hx
      simpa [PyTraps.all] using ht'
    | list L =>
      cases L with
      | nil => cases h
      | cons y L =>
        cases y with
        | trap t0 =>
          injection h with h
          subst h
          simp only [List.mem_singleton, Sum.inl.injEq] at hx
          subst hx
          simp only [PyTraps.all, List.mem_flatMap]
          exact ⟨_, ht', by simp⟩
        | group g =>
          injection h with h
          subst h
          obtain ⟨z, hz, hzq⟩ := List.mem_map.1 hx
          simp only [PyTraps.all, List.mem_flatMap]
          refine ⟨z, hz, ?_⟩
          cases z with
          | trap t0 => cases hzq
          | group g =>
            simp only [Sum.inl.injEq] at hzq
            subst hzq
            obtain ⟨t1, h1, h2⟩ := List.mem_map.1 ht'
            injection h2 with h2
            subst h2
            exact h1

theorem allTrapManager_scaled {lam mu : ℝ} (hlam : 0 < lam) (hmu : 0 < mu) (traps : PyTraps)
    (ht : mu = 1 ∨ ∀ t ∈ traps.all, t.Timescale) (fr : List ℝ) (M : ℕ) :
    ExRel (AtmScaled lam mu) (allTrapManager traps fr M) (allTrapManager (traps.map (Trap.rescale lam mu)) fr M) := by
  unfold allTrapManager
  rw [normal_map]
  cases hn : traps.normal with
  | error e => rfl
  | ok outer =>
    simp only [Except.map, bind_ok]
    split
    · exact atm_new_scaled .nil [] M
    · refine ExRel.bind (R := List.Forall₂ (GroupScaled lam mu)) ?_ fun gs gs' h => atm_new_scaled h fr M
      refine mapM_rel (R := fun x y => y = outerMap (Trap.rescale lam mu) x ∧ x ∈ outer) _ _ ?_ ?_
      · rw [List.forall₂_map_right_iff, List.forall₂_same]
        exact fun x hx => ⟨rfl, hx⟩
      · rintro x _ ⟨rfl, hx⟩
        rw [pyGroup_map]
        cases hp : pyGroup x with
        | error e => rfl
        | ok l =>
          refine groupOf_scaled hlam hmu l (ht.imp_right fun h t h1 => ?_)
          exact h t (normal_traps hn hx hp t h1)

theorem clockChargePy_scaled {lam mu : ℝ} (hlam : 0 < lam) (hmu : 0 < mu) (img : Image ℝ) (ccd : Option CCD) (roe : Roe ℝ)
    (traps : PyTraps) (ht : mu = 1 ∨ ∀ t ∈ traps.all, t.Timescale) (e o : ℕ) (rows columns : List ℕ)
    (tw : Option (List ℕ)) :
    clockChargePy (img.scale lam) (ccd.map (CCD.scaleCharge lam)) (roe.scaleTime mu) (traps.map (Trap.rescale lam mu))
        e o rows columns tw =
      (clockChargePy img ccd roe traps e o rows columns tw).map fun x => (x.1.scale lam, x.2.scaleTime mu) := by
  cases ccd with
  | none =>
    simp only [Option.map_none, clockChargePy, scaleTime_express]
    cases roe.express rows e o tw with
    | error e => rfl
    | ok x =>
      simp only [Except.map, bind_ok, scaleTime_save]
      cases roe.save x.1 <;> rfl
  | some c =>
    simp only [Option.map_some, clockChargePy]
    rw [clockCfg_scaled hmu roe c.view (c.scaleCharge lam).view rfl]
    cases clockCfg roe c.view e o rows tw with
    | error e => rfl
    | ok x =>
      obtain ⟨cfg, roe'⟩ := x
      simp only [Except.map, bind_ok, scaleTime_accessed, maxNTransfers_scaled, Image.scale_pad]
      have hm := allTrapManager_scaled hlam hmu traps ht c.fractions (maxNTransfers roe cfg)
      change (allTrapManager (traps.map (Trap.rescale lam mu)) c.fractions (maxNTransfers roe cfg) >>= fun managers =>
        clockLoops (atmSys (c.scaleCharge lam).view.fill) (cfg.scaleTime mu) columns
          ((img.pad (nPadding roe.accessed)).scale lam, managers) >>= fun out => _) = _
      generalize allTrapManager traps c.fractions (maxNTransfers roe cfg) = a at hm ⊢
      generalize allTrapManager (traps.map (Trap.rescale lam mu)) c.fractions (maxNTransfers roe cfg) = a' at hm ⊢
      rcases a with e | a <;> rcases a' with e' | a' <;> simp only [ExRel] at hm
      · rw [hm]; rfl
      · simp only [bind_ok]
        have := loops_scaled (ccd := c.view) (ccd' := (c.scaleCharge lam).view) hlam (CCD.view_scale hlam c) cfg columns
          (img.pad (nPadding roe.accessed)) hm
        generalize clockLoops (atmSys c.view.fill) cfg columns (img.pad (nPadding roe.accessed), a) = x at this ⊢
        generalize clockLoops (atmSys (c.scaleCharge lam).view.fill) (cfg.scaleTime mu) columns
          ((img.pad (nPadding roe.accessed)).scale lam, a') = y at this ⊢
        rcases x with e | ⟨i, s⟩ <;> rcases y with e' | ⟨j, t⟩ <;> simp only [Except.map] at this
        · injection this with this
          subst this
          rfl
        · cases this
        · cases this
        · injection this with this
          subst this
          rfl

/-- A direction whose unit of time can be changed: the readout object is given (`add_cti` makes its own otherwise), and
no trap has a lifetime distribution. -/
def PyDirection.Timed (d : PyDirection) : Prop := d.roe ≠ none ∧ ∀ traps ∈ d.traps, ∀ t ∈ traps.all, t.Timescale

/-- The two halves of `add_cti`, one after the other. -/
theorem addCtiPy_eq (img : Image ℝ) (par ser : PyDirection) (pw sw : Window) (tw : Option (List ℕ)) :
    addCtiPy img par pw ser sw tw =
      ((match tw with
        | none => (.ok (pw.resolve img.nr) : Except Err (List ℕ))
        | some tw => serialColumns (pw.resolve img.nr) tw par.offset) >>= fun sc =>
      (match par.traps with
        | none => (.ok (img, par.roe.getD Roe.default) : Except Err (Image ℝ × Roe ℝ))
        | some q => clockChargePy img par.ccd (par.roe.getD Roe.default) q par.express par.offset (pw.resolve img.nr)
            (sw.resolve img.nc) (some (tw.getD (List.range (img.nr + par.offset))))) >>= fun y =>
      (match ser.traps with
        | none => (.ok (y.1, y.2, ser.roe.getD Roe.default) : Except Err _)
        | some t => do
          let (out, serRoe) ← clockChargePy y.1.transpose ser.ccd (ser.roe.getD Roe.default) t ser.express ser.offset
            (sw.resolve img.nc) sc none
          .ok (out.transpose, y.2, serRoe))) := by
  unfold addCtiPy
  cases tw <;> cases par.traps <;> rfl

theorem addCtiPy_scaled {lam mu : ℝ} (hlam : 0 < lam) (hmu : 0 < mu) (img : Image ℝ) (par ser : PyDirection)
    (hp : mu = 1 ∨ par.Timed) (hs : mu = 1 ∨ ser.Timed) (pw sw : Window) (tw : Option (List ℕ)) :
    addCtiPy (img.scale lam) (par.rescale lam mu) pw (ser.rescale lam mu) sw tw =
      (addCtiPy img par pw ser sw tw).map fun x => (x.1.scale lam, x.2.1.scaleTime mu, x.2.2.scaleTime mu) := by
  have hroe : ∀ d : PyDirection, (mu = 1 ∨ d.Timed) →
      (d.rescale lam mu).roe.getD Roe.default = (d.roe.getD Roe.default).scaleTime mu := by
    intro d hd
    obtain ⟨ccd, roe, traps, e, o⟩ := d
    cases roe with
    | none =>
      rcases hd with rfl | ⟨h, -⟩
      · exact (Roe.scaleTime_one _).symm
      · exact absurd rfl h
    | some r => rfl
  have hser : ∀ (a : Image ℝ) (r : Roe ℝ) (cols sc : List ℕ),
      (match (ser.rescale lam mu).traps with
        | none => (.ok (a.scale lam, r.scaleTime mu, (ser.rescale lam mu).roe.getD Roe.default) : Except Err _)
        | some t => do
          let (out, serRoe) ← clockChargePy (a.scale lam).transpose (ser.rescale lam mu).ccd
            ((ser.rescale lam mu).roe.getD Roe.default) t ser.express ser.offset cols sc none
          .ok (out.transpose, r.scaleTime mu, serRoe)) =
      (match ser.traps with
        | none => (.ok (a, r, ser.roe.getD Roe.default) : Except Err _)
        | some t => do
          let (out, serRoe) ← clockChargePy a.transpose ser.ccd (ser.roe.getD Roe.default) t ser.express ser.offset
            cols sc none
          .ok (out.transpose, r, serRoe)).map fun x : Image ℝ × Roe ℝ × Roe ℝ =>
            (x.1.scale lam, x.2.1.scaleTime mu, x.2.2.scaleTime mu) := by
    intro a r cols sc
    rw [hroe ser hs]
    unfold PyDirection.rescale
    simp only
    cases ht : ser.traps with
    | none => rfl
    | some t =>
      simp only [Option.map_some, Image.scale_transpose]
      rw [clockChargePy_scaled hlam hmu _ _ _ t (hs.imp_right fun h => h.2 t ht)]
      cases clockChargePy a.transpose ser.ccd (ser.roe.getD Roe.default) t ser.express ser.offset cols sc none <;> rfl
  have hpar : ∀ (rows cols t : List ℕ) (f : Image ℝ × Roe ℝ → Except Err (Image ℝ × Roe ℝ × Roe ℝ))
      (f' : Image ℝ × Roe ℝ → Except Err (Image ℝ × Roe ℝ × Roe ℝ)),
      (∀ a r, f' (a.scale lam, r.scaleTime mu) =
        (f (a, r)).map fun x => (x.1.scale lam, x.2.1.scaleTime mu, x.2.2.scaleTime mu)) →
      (match (par.rescale lam mu).traps with
        | none => (.ok (img.scale lam, (par.rescale lam mu).roe.getD Roe.default) : Except Err _)
        | some q => clockChargePy (img.scale lam) (par.rescale lam mu).ccd ((par.rescale lam mu).roe.getD Roe.default) q
            par.express par.offset rows cols (some t)) >>= f' =
      ((match par.traps with
        | none => (.ok (img, par.roe.getD Roe.default) : Except Err (Image ℝ × Roe ℝ))
        | some q => clockChargePy img par.ccd (par.roe.getD Roe.default) q par.express par.offset rows cols (some t)) >>=
          f).map fun x => (x.1.scale lam, x.2.1.scaleTime mu, x.2.2.scaleTime mu) := by
    intro rows cols t f f' hf
    rw [hroe par hp]
    unfold PyDirection.rescale
    simp only
    cases ht : par.traps with
    | none => exact hf _ _
    | some q =>
      simp only [Option.map_some]
      rw [clockChargePy_scaled hlam hmu _ _ _ q (hp.imp_right fun h => h.2 q ht)]
      cases clockChargePy img par.ccd (par.roe.getD Roe.default) q par.express par.offset rows cols (some t) with
      | error e => rfl
      | ok y => exact hf y.1 y.2
  rw [addCtiPy_eq, addCtiPy_eq]
  have e : ∀ (x : Except Err (List ℕ)) (f f' : List ℕ → Except Err (Image ℝ × Roe ℝ × Roe ℝ)),
      (∀ sc, f' sc = (f sc).map fun x => (x.1.scale lam, x.2.1.scaleTime mu, x.2.2.scaleTime mu)) →
      (x >>= f') = (x >>= f).map fun x => (x.1.scale lam, x.2.1.scaleTime mu, x.2.2.scaleTime mu) := by
    intro x f f' h
    cases x with
    | error e => rfl
    | ok sc => exact h sc
  refine e _ _ _ fun sc => ?_
  exact hpar _ _ _ _ _ fun a r => hser a r _ _

theorem Image.scale_one (i : Image ℝ) : i.scale 1 = i := by unfold Image.scale; simp only [one_mul]

theorem removeCtiPy_scaled {lam mu : ℝ} (hlam : 0 < lam) (hmu : 0 < mu) (img : Image ℝ) (iterations : ℕ)
    (par ser : PyDirection) (hp : mu = 1 ∨ par.Timed) (hs : mu = 1 ∨ ser.Timed) (pw sw : Window) (tw : Option (List ℕ)) :
    removeCtiPy (img.scale lam) iterations (par.rescale lam mu) pw (ser.rescale lam mu) sw tw =
      (removeCtiPy img iterations par pw ser sw tw).map fun x =>
        (x.1.scale lam, x.2.1.map (Roe.scaleTime mu), x.2.2.map (Roe.scaleTime mu)) := by
  unfold removeCtiPy
  refine removeIter_scale lam (fun s : Option (Roe ℝ) × Option (Roe ℝ) =>
      (s.1.map (Roe.scaleTime mu), s.2.map (Roe.scaleTime mu))) _ _
    (fun s => (mu = 1 ∨ s.1 ≠ none) ∧ (mu = 1 ∨ s.2 ≠ none)) ?_ ?_ img iterations img (par.roe, ser.roe)
    ⟨hp.imp_right And.left, hs.imp_right And.left⟩
  · rintro i ⟨a, b⟩ x ⟨h1, h2⟩ hx
    obtain ⟨y, -, hy⟩ := bind_eq_ok hx
    injection hy with hy
    subst hy
    exact ⟨h1.imp_right fun h => by simpa using h, h2.imp_right fun h => by simpa using h⟩
  · rintro i ⟨a, b⟩ ⟨h1, h2⟩
    have key := addCtiPy_scaled hlam hmu i { par with roe := a } { ser with roe := b }
      (hp.elim Or.inl fun hp => h1.imp_right fun h => ⟨h, hp.2⟩) (hs.elim Or.inl fun hs => h2.imp_right fun h => ⟨h, hs.2⟩)
      pw sw tw
    change (addCtiPy (i.scale lam) (PyDirection.rescale lam mu { par with roe := a }) pw
      (PyDirection.rescale lam mu { ser with roe := b }) sw tw >>= fun y => .ok (y.1,
        (a.map (Roe.scaleTime mu)).map fun _ => y.2.1, (b.map (Roe.scaleTime mu)).map fun _ => y.2.2)) = _
    rw [key]
    cases addCtiPy i { par with roe := a } pw { ser with roe := b } sw tw with
    | error e => rfl
    | ok x => cases a <;> cases b <;> rfl

/-- **C64** for `remove_cti` called with objects. -/
theorem C64_remove_objects {lam : ℝ} (hlam : 0 < lam) (img : Image ℝ) (iterations : ℕ) (par ser : PyDirection)
    (pw sw : Window) (tw : Option (List ℕ)) :
    removeCtiPy (img.scale lam) iterations (par.rescale lam 1) pw (ser.rescale lam 1) sw tw =
      (removeCtiPy img iterations par pw ser sw tw).map fun x => (x.1.scale lam, x.2) := by
  have := removeCtiPy_scaled hlam one_pos img iterations par ser (Or.inl rfl) (Or.inl rfl) pw sw tw
  have e : ∀ r : Option (Roe ℝ), r.map (Roe.scaleTime 1) = r := fun r => by cases r <;> simp [Roe.scaleTime_one]
  simpa only [e] using this

/-- **C65** for `remove_cti` called with objects. -/
theorem C65_remove_objects {mu : ℝ} (hmu : 0 < mu) (img : Image ℝ) (iterations : ℕ) (par ser : PyDirection)
    (hp : par.Timed) (hs : ser.Timed) (pw sw : Window) (tw : Option (List ℕ)) :
    removeCtiPy img iterations (par.rescale 1 mu) pw (ser.rescale 1 mu) sw tw =
      (removeCtiPy img iterations par pw ser sw tw).map fun x =>
        (x.1, x.2.1.map (Roe.scaleTime mu), x.2.2.map (Roe.scaleTime mu)) := by
  have := removeCtiPy_scaled one_pos hmu img iterations par ser (Or.inr hp) (Or.inr hs) pw sw tw
  simpa only [Image.scale_one] using this

/-- **C64** for `add_cti` called with objects: image, full well depths, notches and trap densities multiplied by the
same factor give the same result multiplied by this factor, and the same readout objects. -/
theorem C64_objects {lam : ℝ} (hlam : 0 < lam) (img : Image ℝ) (par ser : PyDirection) (pw sw : Window)
    (tw : Option (List ℕ)) :
    addCtiPy (img.scale lam) (par.rescale lam 1) pw (ser.rescale lam 1) sw tw =
      (addCtiPy img par pw ser sw tw).map fun x => (x.1.scale lam, x.2) := by
  have := addCtiPy_scaled hlam one_pos img par ser (Or.inl rfl) (Or.inl rfl) pw sw tw
  simpa only [Roe.scaleTime_one] using this

/-- **C65** for `add_cti` called with objects: dwell times and the release and capture timescales of all traps
multiplied by the same factor give the same image. -/
theorem C65_objects {mu : ℝ} (hmu : 0 < mu) (img : Image ℝ) (par ser : PyDirection) (hp : par.Timed) (hs : ser.Timed)
    (pw sw : Window) (tw : Option (List ℕ)) :
    addCtiPy img (par.rescale 1 mu) pw (ser.rescale 1 mu) sw tw =
      (addCtiPy img par pw ser sw tw).map fun x => (x.1, x.2.1.scaleTime mu, x.2.2.scaleTime mu) := by
  have := addCtiPy_scaled one_pos hmu img par ser (Or.inr hp) (Or.inr hs) pw sw tw
  have e : ∀ i : Image ℝ, i.scale 1 = i := fun i => by unfold Image.scale; simp only [one_mul]
  simpa only [e] using this

/-- Finite and instant capture in both directions with given readout objects. -/
example : PyDirection.Timed ⟨none, some (.standard [1, 2] true true true false),
    some (.list [.trap (.instant 10 2 false), .group [.trap 3 5 0.1 false, .trap 1 7 0 true]]), 0, 0⟩ := by
  refine ⟨by simp, fun traps ht t hm => ?_⟩
  simp only [Option.mem_def, Option.some.injEq] at ht
  subst ht
  simp only [PyTraps.all, List.flatMap_cons, List.flatMap_nil, List.append_nil, List.mem_append, List.mem_cons,
    List.not_mem_nil, or_false] at hm
  rcases hm with rfl | rfl | rfl <;> trivial

end

/-- Three times the charge and three times the traps in a well three times as deep. The image alone is not enough. -/
example : ((addCti (exImg 3 1 [[0], [80], [0]]) (some ⟨exCcd, exRoe, [exGroup], 0, 0⟩) 0 .all none .all none).map
      fun x => x.1.rows) = .ok [[0], [324 / 5], [20197 / 2000]] ∧
    ((addCti ((exImg 3 1 [[0], [80], [0]]).scale 3) (some (Direction.scaleCharge 3 ⟨exCcd, exRoe, [exGroup], 0, 0⟩)) 0 .all
      none .all none).map fun x => x.1.rows) = .ok [[0], [972 / 5], [60591 / 2000]] ∧
    ((addCti ((exImg 3 1 [[0], [80], [0]]).scale 3) (some ⟨exCcd, exRoe, [exGroup], 0, 0⟩) 0 .all none .all none).map
      fun x => x.1.rows) ≠ .ok [[0], [972 / 5], [60591 / 2000]] := by decide +kernel

/-- Release at a rate that depends on the dwell time, in units of time that differ by a factor of two. -/
example : Group.Retimed (2 : ℚ) ⟨1, fun _ => 10, .instant fun t _ => t / (t + 1)⟩
    ⟨1, fun _ => 1 * 10, .instant fun t _ => t / (t + 2)⟩ :=
  .mk _ _ _ (.instant _ _ fun t => funext fun _ => by
    rw [show 2 * t + 2 = 2 * (t + 1) by ring, mul_div_mul_left _ _ two_ne_zero])

end Arctic
