import Verif.Lemmas.Columns
import Verif.Model.Main

/-!
# Unfolding `add_cti`
-/

set_option linter.unusedSectionVars false
set_option linter.unusedVariables false

namespace Arctic

variable {K : Type} [Field K] [LinearOrder K] [IsStrictOrderedRing K]

/-- A successful call runs the parallel and then the serial direction. -/
theorem addCti_ok {img out : Image K} {par ser par' ser' : Option (Direction K)} {o : ℕ} {pw sw : Window}
    {tw : Option (List ℕ)} (h : addCti img par o pw ser sw tw = .ok (out, par', ser')) :
    ∃ serCols mid,
      (tw = none ∧ serCols = pw.resolve img.nr ∨
        ∃ t, tw = some t ∧ serialColumns (pw.resolve img.nr) t o = .ok serCols) ∧
      (par = none ∧ mid = img ∧ par' = none ∨
        ∃ d roe', par = some d ∧ par' = some { d with roe := roe' } ∧
          clockCharge img d.ccd d.roe d.groups d.express o (pw.resolve img.nr) (sw.resolve img.nc)
            (some (tw.getD (List.range (img.nr + o)))) = .ok (mid, roe')) ∧
      (ser = none ∧ out = mid ∧ ser' = none ∨
        ∃ d roe' res, ser = some d ∧ ser' = some { d with roe := roe' } ∧ out = res.transpose ∧
          clockCharge mid.transpose d.ccd d.roe d.groups d.express d.offset (sw.resolve img.nc) serCols none =
            .ok (res, roe')) := by
  unfold addCti at h
  simp only at h
  have key : ∀ serCols,
      (match par with
        | none => Except.ok (img, none)
        | some d => do
          let (out, roe') ← clockCharge img d.ccd d.roe d.groups d.express o (pw.resolve img.nr)
            (sw.resolve img.nc) (some (tw.getD (List.range (img.nr + o))))
          Except.ok (out, some { d with roe := roe' }) : Except Err (Image K × Option (Direction K))) >>=
        (fun (x : Image K × Option (Direction K)) => match ser with
          | none => Except.ok (x.1, x.2, none)
          | some d => do
            let (out, roe') ← clockCharge x.1.transpose d.ccd d.roe d.groups d.express d.offset
              (sw.resolve img.nc) serCols none
            Except.ok (out.transpose, x.2, some { d with roe := roe' })) = .ok (out, par', ser') →
      ∃ mid, (par = none ∧ mid = img ∧ par' = none ∨
        ∃ d roe', par = some d ∧ par' = some { d with roe := roe' } ∧
          clockCharge img d.ccd d.roe d.groups d.express o (pw.resolve img.nr) (sw.resolve img.nc)
            (some (tw.getD (List.range (img.nr + o)))) = .ok (mid, roe')) ∧
      (ser = none ∧ out = mid ∧ ser' = none ∨
        ∃ d roe' res, ser = some d ∧ ser' = some { d with roe := roe' } ∧ out = res.transpose ∧
          clockCharge mid.transpose d.ccd d.roe d.groups d.express d.offset (sw.resolve img.nc) serCols none =
            .ok (res, roe')) := by
    intro serCols h
    obtain ⟨⟨mid, par1⟩, h1, h2⟩ := bind_eq_ok h
    simp only at h2
    refine ⟨mid, ?_, ?_⟩
    · have hp : par1 = par' := by
        cases ser with
        | none => simp only at h2; injection h2 with h2; injection h2 with _ h2; injection h2
        | some d =>
          simp only at h2
          obtain ⟨⟨res, roe'⟩, _, h3⟩ := bind_eq_ok h2
          injection h3 with h3; injection h3 with _ h3; injection h3
      subst hp
      cases par with
      | none => left; simp only at h1; injection h1 with h1; injection h1 with h3 h4; exact ⟨rfl, h3.symm, h4.symm⟩
      | some d =>
        right
        simp only at h1
        obtain ⟨⟨res, roe'⟩, h3, h4⟩ := bind_eq_ok h1
        injection h4 with h4; injection h4 with h4 h5
        subst h4
        exact ⟨d, roe', rfl, h5.symm, h3⟩
    · cases ser with
      | none =>
        left; simp only at h2; injection h2 with h2; injection h2 with h3 h4; injection h4 with h4 h5
        exact ⟨rfl, h3.symm, h5.symm⟩
      | some d =>
        right
        simp only at h2
        obtain ⟨⟨res, roe'⟩, h3, h4⟩ := bind_eq_ok h2
        injection h4 with h4; injection h4 with h4 h5; injection h5 with h5 h6
        exact ⟨d, roe', res, rfl, h6.symm, h4.symm, h3⟩
  cases tw with
  | none =>
    obtain ⟨mid, h1, h2⟩ := key _ (by
      revert h
      cases par with
      | none => cases ser <;> exact fun h => h
      | some d =>
        simp only
        generalize clockCharge img d.ccd d.roe d.groups d.express o (pw.resolve img.nr) (sw.resolve img.nc)
            (some (Option.getD none (List.range (img.nr + o)))) = x
        cases x <;> cases ser <;> exact fun h => h)
    exact ⟨_, mid, Or.inl ⟨rfl, rfl⟩, h1, h2⟩
  | some t =>
    simp only at h
    obtain ⟨sc, h0, h⟩ := bind_eq_ok h
    obtain ⟨mid, h1, h2⟩ := key sc (by
      revert h
      cases par with
      | none => cases ser <;> exact fun h => h
      | some d =>
        simp only
        generalize clockCharge img d.ccd d.roe d.groups d.express o (pw.resolve img.nr) (sw.resolve img.nc)
            (some (Option.getD (some t) (List.range (img.nr + o)))) = x
        cases x <;> cases ser <;> exact fun h => h)
    exact ⟨sc, mid, Or.inr ⟨t, rfl, h0⟩, h1, h2⟩

/-- Parallel only. -/
theorem addCti_par (img : Image K) (d : Direction K) (o : ℕ) (pw sw : Window) :
    addCti img (some d) o pw none sw none =
      (clockCharge img d.ccd d.roe d.groups d.express o (pw.resolve img.nr) (sw.resolve img.nc)
        (some (List.range (img.nr + o)))).map fun x => (x.1, some { d with roe := x.2 }, none) := by
  unfold addCti
  simp only [Option.getD_none]
  generalize clockCharge img d.ccd d.roe d.groups d.express o (pw.resolve img.nr) (sw.resolve img.nc)
            (some (List.range (img.nr + o))) = x
  cases x <;> rfl

/-- Parallel only, with a time window. -/
theorem addCti_par_time (img : Image K) (d : Direction K) (o : ℕ) (pw sw : Window) (t : List ℕ) (sc : List ℕ)
    (hs : serialColumns (pw.resolve img.nr) t o = .ok sc) :
    addCti img (some d) o pw none sw (some t) =
      (clockCharge img d.ccd d.roe d.groups d.express o (pw.resolve img.nr) (sw.resolve img.nc)
        (some t)).map fun x => (x.1, some { d with roe := x.2 }, none) := by
  unfold addCti
  simp only [Option.getD_some, hs]
  generalize clockCharge img d.ccd d.roe d.groups d.express o (pw.resolve img.nr) (sw.resolve img.nc)
            (some t) = x
  cases x <;> rfl

/-- Serial only. -/
theorem addCti_ser (img : Image K) (d : Direction K) (o : ℕ) (pw sw : Window) :
    addCti img none o pw (some d) sw none =
      (clockCharge img.transpose d.ccd d.roe d.groups d.express d.offset (sw.resolve img.nc) (pw.resolve img.nr)
        none).map fun x => (x.1.transpose, none, some { d with roe := x.2 }) := by
  unfold addCti
  change ((clockCharge img.transpose d.ccd d.roe d.groups d.express d.offset (sw.resolve img.nc) (pw.resolve img.nr)
        none) >>= fun (x : Image K × Roe K) =>
          Except.ok (x.1.transpose, none, some { d with roe := x.2 })) = _
  generalize clockCharge img.transpose d.ccd d.roe d.groups d.express d.offset (sw.resolve img.nc)
    (pw.resolve img.nr) none = x
  cases x <;> rfl

/-- The shape is kept. -/
theorem clockCharge_shape {img : Image K} {ccd : CcdView K} {roe : Roe K} {groups : List (Group K)} {e o : ℕ}
    {rows columns : List ℕ} {tw : Option (List ℕ)} {out : Image K} {roe' : Roe K}
    (h : clockCharge img ccd roe groups e o rows columns tw = .ok (out, roe')) :
    out.nr = img.nr ∧ out.nc = img.nc := by
  obtain ⟨cfg, st, h1, h2, rfl⟩ := clockCharge_ok h
  obtain ⟨f1, f2, -⟩ := clockLoops_frame _ cfg h2
  simp only [Image.unpad, Image.pad] at f1 f2 ⊢
  exact ⟨by omega, f2⟩

end Arctic
