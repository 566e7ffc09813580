import Verif.Lemmas.AddCti
import Verif.Lemmas.ClockInv

/-!
# Only pixels of the image matter

`Image.px` is a function on all pairs of numbers; `add_cti` depends on its values inside the image only.
-/

set_option linter.unusedSectionVars false
set_option linter.unusedVariables false

namespace Arctic

variable {K : Type} [Field K] [LinearOrder K] [IsStrictOrderedRing K]

/-- The same image: same shape, same pixels. -/
structure Image.Same (i j : Image K) : Prop where
  nr : i.nr = j.nr
  nc : i.nc = j.nc
  px : ∀ r < i.nr, ∀ c < i.nc, i.px r c = j.px r c

theorem Image.Same.refl (i : Image K) : i.Same i := ⟨rfl, rfl, fun _ _ _ _ => rfl⟩

theorem Image.Same.symm {i j : Image K} (h : i.Same j) : j.Same i :=
  ⟨h.nr.symm, h.nc.symm, fun r hr c hc => (h.px r (h.nr ▸ hr) c (h.nc ▸ hc)).symm⟩

theorem Image.Same.trans {i j k : Image K} (h : i.Same j) (h' : j.Same k) : i.Same k :=
  ⟨h.nr.trans h'.nr, h.nc.trans h'.nc, fun r hr c hc =>
    (h.px r hr c hc).trans (h'.px r (h.nr ▸ hr) c (h.nc ▸ hc))⟩

theorem Image.Same.transpose {i j : Image K} (h : i.Same j) : i.transpose.Same j.transpose :=
  ⟨h.nc, h.nr, fun r hr c hc => h.px c hc r hr⟩

theorem Image.Same.pad {i j : Image K} (h : i.Same j) (n : ℕ) : (i.pad n).Same (j.pad n) := by
  refine ⟨by simp [Image.pad, h.nr], h.nc, fun r hr c hc => ?_⟩
  simp only [Image.pad, h.nr]
  split
  · rename_i h1
    exact h.px r (h.nr ▸ h1) c hc
  · rfl

theorem Image.Same.unpad {i j : Image K} (h : i.Same j) (n : ℕ) : (i.unpad n).Same (j.unpad n) := by
  refine ⟨by simp [Image.unpad, h.nr], h.nc, fun r hr c hc => ?_⟩
  simp only [Image.unpad] at hr
  exact h.px r (by omega) c hc

theorem imgRel_same (c : ℕ) : ImgRel (K := K) c Image.Same where
  read i j h r := by
    unfold Image.read
    rw [h.nr, h.nc]
    split
    · rename_i hh
      rw [h.px _ (by rw [h.nr]; omega) _ (by rw [h.nc]; exact hh.2.2)]
    · rfl
  set i j h r v := by
    refine ⟨h.nr, h.nc, fun r' hr' c' hc' => ?_⟩
    simp only [Image.set]
    rw [h.px r' hr' c' hc']

theorem sysRel_eq {S : Type} (sys : TrapSys K S) : SysRel sys sys (· = ·) (· = ·) where
  react s t h ph n dw := by
    subst h
    exact ExRel.refl (fun a => ⟨rfl, rfl⟩) _
  save s t h := by rw [h]
  restore s t h := by rw [h]
  weaken s t h := h

theorem clockCharge_same {i j : Image K} (h : i.Same j) (ccd : CcdView K) (roe : Roe K) (groups : List (Group K))
    (e o : ℕ) (rows columns : List ℕ) (tw : Option (List ℕ)) :
    ExRel (fun a b => a.1.Same b.1 ∧ a.2 = b.2) (clockCharge i ccd roe groups e o rows columns tw)
      (clockCharge j ccd roe groups e o rows columns tw) := by
  unfold clockCharge
  refine ExRel.bind (R := fun a b => a = b) (ExRel.refl (fun _ => rfl) _) ?_
  rintro ⟨cfg, roe'⟩ _ rfl
  refine ExRel.bind (clockLoops_rel (sysRel_eq (atmSys ccd.fill)) cfg columns (fun c _ => imgRel_same c)
    (fun s t hst => by rw [hst]) _ _ ⟨h.pad _, rfl⟩) ?_
  rintro ⟨a, s⟩ ⟨b, t⟩ ⟨hab, -⟩
  exact ⟨hab.unpad _, rfl⟩

/-- The serial half of `add_cti`. -/
def serialHalf (ser : Option (Direction K)) (cols sc : List ℕ) (x : Image K × Option (Direction K)) :
    Except Err (Image K × Option (Direction K) × Option (Direction K)) :=
  match ser with
  | none => .ok (x.1, x.2, none)
  | some d =>
    clockCharge x.1.transpose d.ccd d.roe d.groups d.express d.offset cols sc none >>= fun y =>
      .ok (y.1.transpose, x.2, some { d with roe := y.2 })

/-- Both halves of `add_cti`, given the columns for serial clocking. -/
def bothHalves (img : Image K) (par ser : Option (Direction K)) (o : ℕ) (rows cols : List ℕ) (tw sc : List ℕ) :
    Except Err (Image K × Option (Direction K) × Option (Direction K)) :=
  match par with
  | none => serialHalf ser cols sc (img, none)
  | some d => clockCharge img d.ccd d.roe d.groups d.express o rows cols (some tw) >>= fun y =>
      serialHalf ser cols sc (y.1, some { d with roe := y.2 })

theorem addCti_halves (img : Image K) (par ser : Option (Direction K)) (o : ℕ) (pw sw : Window)
    (tw : Option (List ℕ)) :
    addCti img par o pw ser sw tw = ((match tw with
      | none => .ok (pw.resolve img.nr)
      | some t => serialColumns (pw.resolve img.nr) t o) >>= fun sc =>
        bothHalves img par ser o (pw.resolve img.nr) (sw.resolve img.nc) (tw.getD (List.range (img.nr + o))) sc) := by
  cases tw <;> cases par <;> cases ser <;> rfl

theorem addCti_same {i j : Image K} (h : i.Same j) (par ser : Option (Direction K)) (o : ℕ) (pw sw : Window)
    (tw : Option (List ℕ)) :
    ExRel (fun a b => a.1.Same b.1 ∧ a.2 = b.2) (addCti i par o pw ser sw tw) (addCti j par o pw ser sw tw) := by
  have hser : ∀ (cols sc : List ℕ) (a b : Image K) (p : Option (Direction K)), a.Same b →
      ExRel (fun a b => a.1.Same b.1 ∧ a.2 = b.2) (serialHalf ser cols sc (a, p)) (serialHalf ser cols sc (b, p)) := by
    intro cols sc a b p h1
    cases ser with
    | none => exact ⟨h1, rfl⟩
    | some d =>
      refine ExRel.bind (clockCharge_same h1.transpose _ _ _ _ _ _ _ _) ?_
      rintro ⟨a', ra⟩ ⟨b', rb⟩ ⟨h3, h4⟩
      refine ⟨h3.transpose, ?_⟩
      simp only at h4
      rw [h4]
  rw [addCti_halves, addCti_halves, h.nr, h.nc]
  refine ExRel.bind (R := fun a b => a = b) (ExRel.refl (fun _ => rfl) _) ?_
  rintro sc _ rfl
  cases par with
  | none => exact hser _ _ _ _ _ h
  | some d =>
    refine ExRel.bind (clockCharge_same h _ _ _ _ _ _ _ _) ?_
    rintro ⟨a, ra⟩ ⟨b, rb⟩ ⟨h1, h2⟩
    simp only at h2
    subst h2
    exact hser _ _ _ _ _ h1

/-- `add_cti` keeps the shape. -/
theorem addCti_shape {img out : Image K} {par ser par' ser' : Option (Direction K)} {o : ℕ} {pw sw : Window}
    {tw : Option (List ℕ)} (h : addCti img par o pw ser sw tw = .ok (out, par', ser')) :
    out.nr = img.nr ∧ out.nc = img.nc := by
  obtain ⟨sc, mid, -, h1, h2⟩ := addCti_ok h
  have hmid : mid.nr = img.nr ∧ mid.nc = img.nc := by
    rcases h1 with ⟨-, rfl, -⟩ | ⟨d, roe', -, -, h1⟩
    · exact ⟨rfl, rfl⟩
    · exact clockCharge_shape h1
  rcases h2 with ⟨-, rfl, -⟩ | ⟨d, roe', res, -, -, rfl, h2⟩
  · exact hmid
  · have := clockCharge_shape h2
    exact ⟨this.2.trans hmid.1, this.1.trans hmid.2⟩

end Arctic
