import Verif.Props.RefSlow
import Verif.Props.Charge

/-!
# C63 — the account of the electrons with any number of groups, if the traps are few
-/

set_option linter.unusedSectionVars false
set_option linter.unusedVariables false

namespace Arctic
open Finset

/-- Sensible traps of any kind: probabilities are probabilities, and occupancies do not rise outside clouds. -/
def Group.Fine (g : Group ℝ) : Prop :=
  (∀ j, 0 ≤ g.dens j) ∧
    match g.kind with
    | .slow p => ∀ x, 0 < x → ProbsOk (p x)
    | .instant p => ∀ x, 0 < x → ∀ j, 0 ≤ p x j ∧ p x j ≤ 1
    | .trackTime c => (∀ j, c j 0 = 1) ∧ (∀ j x, 0 ≤ x → 0 ≤ c j x ∧ c j x ≤ 1) ∧ ∀ j x y, 0 ≤ x → x ≤ y → c j y ≤ c j x

/-- Traps per pixel of a list of groups. -/
def groupCount (groups : List (Group ℝ)) : ℝ := (groups.map fun g => ∑ j, g.dens j).sum

theorem mgrFew_new {D : ℝ} (g : Group ℝ) (hg : g.Fine) (M : ℕ) (x : ℝ) (hx : 0 ≤ x) (hD : (∑ j, g.dens j) * x ≤ D) :
    MgrFew D M 0 (Mgr.new (fun j => g.dens j * x) g.kind M) := by
  obtain ⟨s, dens, kind⟩ := g
  obtain ⟨h1, h2⟩ := hg
  have hd : ∀ j, 0 ≤ dens j * x := fun j => mul_nonneg (h1 j) hx
  cases kind with
  | slow p =>
    exact Or.inr ⟨_, slowRef_new ⟨s, dens, fun x => (p x).fromEmpty, fun x => (p x).fromFull, fun x => (p x).fromRelease,
      fun _ _ => 0⟩ M x ⟨h1, fun y hy j => ⟨(h2 y hy).empty j, (h2 y hy).full j, (h2 y hy).release j⟩⟩ hx hD p
      fun _ _ => rfl⟩
  | instant p =>
    obtain ⟨b1, b2, -⟩ := mgrOk_new (T := fun t : ℝ => 0 < t) (fun j => dens j * x) (.instant p) M hd h2
    exact Or.inl ⟨b1, b2⟩
  | trackTime c =>
    obtain ⟨b1, b2, -⟩ := mgrOk_new (T := fun t : ℝ => 0 < t) (fun j => dens j * x) (.trackTime c) M hd h2
    exact Or.inl ⟨b1, b2⟩

theorem phaseFew_new {D : ℝ} (groups : List (Group ℝ)) (hg : ∀ g ∈ groups, g.Fine) (M : ℕ) (x : ℝ) (hx : 0 ≤ x)
    (hD : groupCount groups * x ≤ D) :
    PhaseFew D M 0 (groups.map fun g => Mgr.new (fun j => g.dens j * x) g.kind M) := by
  have e : ((groups.map fun g => Mgr.new (fun j => g.dens j * x) g.kind M).map Mgr.total).sum = groupCount groups * x := by
    unfold groupCount
    rw [← List.sum_map_mul_right, List.map_map]
    congr 1
    refine List.map_congr_left fun g _ => ?_
    exact (Finset.sum_mul Finset.univ g.dens x).symm
  refine ⟨e.trans_le hD, fun m hm => ?_⟩
  obtain ⟨g, hgm, rfl⟩ := List.mem_map.1 hm
  refine mgrFew_new g (hg g hgm) M x hx (le_trans ?_ hD)
  refine mul_le_mul_of_nonneg_right ?_ hx
  refine List.single_le_sum (fun y hy => ?_) _ (List.mem_map_of_mem hgm)
  obtain ⟨q, hq, rfl⟩ := List.mem_map.1 hy
  exact Finset.sum_nonneg fun j _ => (hg q hq).1 j

/-- A CCD in which all traps together are few: where the volume of a cloud grows by `v`, it grows by at least as many
electrons as there are traps in `v`. -/
def FewFor (ccd : CcdView ℝ) (groups : List (Group ℝ)) : Prop :=
  ∃ D, (∀ x ∈ ccd.fractions, 0 ≤ x ∧ groupCount groups * x ≤ D) ∧
    ∀ ph < ccd.fractions.length, FillModel (ccd.fill ph) ∧ FewTraps (ccd.fill ph) D

/-- **C63**: with full readout, any number of groups of any kind of traps and any number of phases, if all traps together
are few, the electrons of a column are those in the image returned, those left in the padding beyond the last row, and those
still in traps at the end of each pass. -/
theorem C63_account (img out : Image ℝ) (ccd : CcdView ℝ) (roe roe' : Roe ℝ) (groups : List (Group ℝ)) (o : ℕ)
    (rows columns : List ℕ) (tw : Option (List ℕ)) (hfull : FullReadout o rows tw roe)
    (hb : roe.emptyBetween = true) (hnd : columns.Nodup) (hfew : FewFor ccd groups) (hg : ∀ g ∈ groups, g.Fine)
    (h : clockCharge img ccd roe groups 0 o rows columns tw = .ok (out, roe')) (c : ℕ) (hc : c ∈ columns)
    (h0 : ∀ r < img.nr, 0 ≤ img.px r c) :
    ∃ (cfg : ClockCfg ℝ) (fin : Image ℝ) (traps : ATM ℝ), clockCfg roe ccd 0 o rows tw = .ok (cfg, roe') ∧
      (List.range cfg.expr.nr).foldlM (expressBody (atmSys ccd.fill) cfg c) (img.pad (nPadding roe.accessed),
        ATM.new groups ccd.fractions (maxNTransfers roe cfg)) = .ok (fin, traps) ∧
      (∀ r, out.px r c = fin.px r c) ∧ out.nr = img.nr ∧ (∀ r < fin.nr, 0 ≤ fin.px r c) ∧ 0 ≤ traps.currently ∧
      (NoSaves roe → 0 ≤ traps.previously) ∧
      colSum img c = colSum out c + spill fin img.nr c + (traps.previously + traps.currently) := by
  obtain ⟨D, h1, h2⟩ := hfew
  exact account_of (phaseFew_inv D) img out ccd roe roe' groups o rows columns tw hfull hb hnd
    ⟨fun x hx => (h1 x hx).1, fun ph hp => ⟨(h2 ph hp).1, (h2 ph hp).2.pos⟩⟩ (fun ph hp => (h2 ph hp).2)
    (fun M x hx => phaseFew_new groups hg M x (h1 x hx).1 (h1 x hx).2) h c hc h0

/-- **C63**: so no column gains electrons if no trap states are carried from pass to pass. -/
theorem C63_no_creation (img out : Image ℝ) (ccd : CcdView ℝ) (roe roe' : Roe ℝ) (groups : List (Group ℝ)) (o : ℕ)
    (rows columns : List ℕ) (tw : Option (List ℕ)) (hfull : FullReadout o rows tw roe) (hns : NoSaves roe)
    (hb : roe.emptyBetween = true) (hnd : columns.Nodup) (hfew : FewFor ccd groups) (hg : ∀ g ∈ groups, g.Fine)
    (h : clockCharge img ccd roe groups 0 o rows columns tw = .ok (out, roe')) (c : ℕ)
    (h0 : ∀ r < img.nr, 0 ≤ img.px r c) : colSum out c ≤ colSum img c := by
  by_cases hc : c ∈ columns
  · obtain ⟨cfg, fin, traps, -, -, h3, h4, h5, h6, h7, h8⟩ := C63_account img out ccd roe roe' groups o rows columns tw
      hfull hb hnd hfew hg h c hc h0
    have hs : 0 ≤ spill fin img.nr c := Finset.sum_nonneg fun r hr => h5 _ (by have := mem_range.1 hr; omega)
    have := h7 hns
    rw [h8]
    linarith
  · unfold colSum
    rw [(clockCharge_shape h).1]
    exact Finset.sum_le_sum fun r hr => le_of_eq
      ((C27_columns img ccd roe groups 0 o rows columns tw hb hnd out roe' h).2 c hc r (mem_range.1 hr))

/-! ## Python objects -/

theorem EveryGroup.fine {l : List Trap} (h : EveryGroup l) : (groupOf l).Fine := by
  have hs : ∀ j : Fin l.length, l[j].Sensible := fun j => (h.all _ (List.getElem_mem _)).1
  cases l with
  | nil => exact absurd rfl h.ne_nil
  | cons a l =>
    cases a with
    | trap d τ τc b =>
      refine ⟨fun j => (hs j).density, fun x hx => ?_⟩
      have e := slowOf_probs h hx
      have ok := h.slow_ok
      have key : ProbsOk (fillProbs (fun j : Fin (Trap.trap d τ τc b :: l).length => (Trap.trap d τ τc b :: l)[j]) x) := by
        rw [e]
        exact ⟨fun j => (ok.fractions x hx j).1, fun j => (ok.fractions x hx j).2.1, fun j => (ok.fractions x hx j).2.2⟩
      exact key
    | instant d τ b =>
      refine ⟨fun j => (hs j).density, fun x hx j => ?_⟩
      have ht := (hs j).timescale
      refine ⟨(Real.exp_pos _).le, Real.exp_le_one_iff.2 ?_⟩
      change -((Trap.instant d τ b :: l)[j]).emissionRate * x ≤ 0
      have : 0 ≤ ((Trap.instant d τ b :: l)[j]).emissionRate := by
        unfold Trap.emissionRate; positivity
      nlinarith
    | continuum d f m s =>
      exact ⟨fun j => (hs j).density, fun j => (hs j).law.1, fun j => (hs j).law.2, fun j => (hs j).anti⟩

theorem groupCount_objects (gs : List (List Trap)) (h : ∀ l ∈ gs, l ≠ []) : groupCount (gs.map groupOf) = trapCount gs := by
  unfold groupCount trapCount
  rw [List.map_map]
  congr 1
  refine List.map_congr_left fun l hl => ?_
  cases l with
  | nil => exact absurd rfl (h _ hl)
  | cons a l =>
    have : (a :: l).map Trap.density = List.ofFn fun j : Fin (a :: l).length => (a :: l)[j].density := by
      rw [← List.ofFn_getElem_eq_map]; rfl
    rw [this, List.sum_ofFn]
    rfl

/-- Arguments of one direction: as for C62, and all traps together are at most `D` per phase. -/
structure FewObjects (D : ℝ) (c : CCD) (dw : List ℝ) (i : Bool) (gs : List (List Trap)) : Prop where
  objects : SlowObjects D c dw i gs
  total : ∀ x ∈ c.fractions, trapCount gs * x ≤ D

theorem FewObjects.each {D : ℝ} {c : CCD} {dw : List ℝ} {i : Bool} {gs : List (List Trap)} (h : FewObjects D c dw i gs) :
    ∀ l ∈ gs, ∀ x ∈ c.fractions, (l.map Trap.density).sum * x ≤ D := by
  intro l hl x hx
  refine le_trans (mul_le_mul_of_nonneg_right ?_ (h.objects.fractions.2 x hx)) (h.total x hx)
  refine List.single_le_sum (fun y hy => ?_) _ (List.mem_map_of_mem hl)
  obtain ⟨q, hq, rfl⟩ := List.mem_map.1 hy
  refine List.sum_nonneg fun z hz => ?_
  obtain ⟨t, ht, rfl⟩ := List.mem_map.1 hz
  exact ((h.objects.groups.2 q hq).all t ht).1.density

/-- **C63** for one direction with Python objects: clocking completes, the result is not negative, and no column gains
electrons. -/
theorem C63_objects {D : ℝ} {c : CCD} {dw : List ℝ} {i : Bool} {gs : List (List Trap)} (h : FewObjects D c dw i gs)
    (img : Image ℝ) (himg : img.NonNeg) (o : ℕ) (rows columns : List ℕ) (tw : Option (List ℕ)) (hne : rows ≠ [])
    (hrows : ∀ w ∈ rows, w < img.nr) (hcols : ∀ c ∈ columns, c < img.nc) (hnd : columns.Nodup)
    (hcov : Covering o rows tw) :
    ∃ out roe', clockChargePy img (some c) (.standard dw true true true i) (.list (gs.map .group)) 0 o rows columns tw =
      .ok (out, roe') ∧ out.nr = img.nr ∧ out.nc = img.nc ∧ out.NonNeg ∧ ∀ j < img.nc, colSum out j ≤ colSum img j := by
  obtain ⟨⟨out, roe'⟩, hout⟩ := (C62_objects h.objects img himg 0 o rows columns tw hrows hcols).2 hne
    (fun hs => hs.2.1 rfl) (by
      intro t ht hnil
      subst hnil
      rcases hcov with h1 | ⟨N, h1, h2⟩
      · rw [h1] at ht; cases ht
      · rw [h1] at ht
        simp only [Option.mem_def, Option.some.injEq, List.range_eq_nil] at ht
        obtain ⟨w, l, hw⟩ := List.exists_cons_of_ne_nil hne
        have := h2 w (by rw [hw]; exact List.mem_cons_self)
        omega)
    (fun l hl _ _ _ _ _ x hx => h.each l hl x hx)
  refine ⟨out, roe', hout, ?_⟩
  rw [clockChargePy_groups img c _ gs h.objects.groups.1 (fun l hl => (h.objects.groups.2 l hl).ne_nil)
    h.objects.fractions.1] at hout
  refine ⟨(clockCharge_shape hout).1, (clockCharge_shape hout).2,
    clockCharge_nonneg _ _ _ _ _ _ _ _ _ _ _ hout himg, fun j hj => ?_⟩
  refine C63_no_creation img out c.view (.standard dw true true true i) roe' (gs.map groupOf) o rows columns tw ⟨hcov, Or.inl rfl⟩ rfl rfl hnd
    ⟨D, fun x hx => ⟨h.objects.fractions.2 x hx, ?_⟩, fun ph hp => h.objects.fill ph hp⟩ ?_ hout j
    (fun r hr => himg r hr j hj)
  · rw [groupCount_objects gs fun l hl => (h.objects.groups.2 l hl).ne_nil]
    exact h.total x hx
  · intro g hg
    obtain ⟨l, hl, rfl⟩ := List.mem_map.1 hg
    exact (h.objects.groups.2 l hl).fine

/-- **C63** for `add_cti` in both directions: it completes and never returns more electrons than it was given. -/
theorem C63_add_cti {D D' : ℝ} {c c' : CCD} {dw dw' : List ℝ} {i i' : Bool} {gs gs' : List (List Trap)}
    (hp : FewObjects D c dw i gs) (hs : FewObjects D' c' dw' i' gs') (img : Image ℝ) (himg : img.NonNeg)
    (o o' : ℕ) (pw sw : Window) (hpw : pw.resolve img.nr ≠ []) (hsw : sw.resolve img.nc ≠ [])
    (hpn : (pw.resolve img.nr).Nodup) (hsn : (sw.resolve img.nc).Nodup)
    (hpr : ∀ w ∈ pw.resolve img.nr, w < img.nr) (hsr : ∀ w ∈ sw.resolve img.nc, w < img.nc) :
    ∃ out rp rs, addCtiPy img ⟨some c, some (.standard dw true true true i), some (.list (gs.map .group)), 0, o⟩ pw
        ⟨some c', some (.standard dw' true true true i'), some (.list (gs'.map .group)), 0, o'⟩ sw none =
        .ok (out, rp, rs) ∧ out.NonNeg ∧ total out ≤ total img := by
  obtain ⟨mid, rp, m1, m2, m3, m4, m5⟩ := C63_objects hp img himg o (pw.resolve img.nr) (sw.resolve img.nc)
    (some (List.range (img.nr + o))) hpw hpr hsr hsn (Or.inr ⟨img.nr, rfl, hpr⟩)
  obtain ⟨out, rs, o1, o2, o3, o4, o5⟩ := C63_objects hs mid.transpose (fun r hr c hc => m4 c hc r hr) o'
    (sw.resolve img.nc) (pw.resolve img.nr) none hsw (fun w hw => by change w < mid.nc; rw [m3]; exact hsr w hw)
    (fun w hw => by change w < mid.nr; rw [m2]; exact hpr w hw) hpn (Or.inl rfl)
  refine ⟨out.transpose, rp, rs, ?_, fun r hr c hc => o4 c hc r hr, ?_⟩
  · unfold addCtiPy
    simp only [Option.getD_some, Option.getD_none, bind, Except.bind, m1, o1]
  · have e1 : total mid ≤ total img := by
      unfold total
      rw [m3]
      exact Finset.sum_le_sum fun j hj => m5 j (mem_range.1 hj)
    have e2 : total out ≤ total mid.transpose := by
      unfold total
      rw [o3]
      exact Finset.sum_le_sum fun j hj => o5 j (mem_range.1 hj)
    rw [total_transpose] at e2 ⊢
    exact e2.trans e1

/-- 22 traps per pixel in two groups of different kinds in a well for 1000 electrons. -/
example : FewObjects 22 ⟨[1], [1000], [1.5], [0], [.num 1000]⟩ [1] false
    [[.trap 10 2 0.1 false], [.instant 2 5 false, .instant 10 1 false]] := by
  refine ⟨⟨⟨by simp, by simp⟩, fun ph hph => ?_, by simp, ⟨by simp, fun l hl => ?_⟩, ?_, by norm_num⟩, fun x hx => ?_⟩
  · obtain rfl : ph = 0 := by simpa using hph
    exact ⟨1000, 1.5, ⟨rfl, rfl, rfl⟩, by norm_num, by norm_num, by norm_num⟩
  · simp only [List.mem_cons, List.not_mem_nil, or_false] at hl
    rcases hl with rfl | rfl <;> refine ⟨by simp, fun t ht => ?_⟩ <;>
      simp only [List.mem_cons, List.not_mem_nil, or_false] at ht
    · subst ht
      exact ⟨⟨by norm_num, by norm_num⟩, by simp only [Trap.captureTimescale]; norm_num⟩
    · rcases ht with rfl | rfl <;> exact ⟨⟨by norm_num, by norm_num⟩, le_rfl⟩
  · intro l hl d τ τc b hd x hx
    simp only [List.mem_cons, List.not_mem_nil, or_false] at hl hx
    subst hx
    rcases hl with rfl | rfl
    · simp [Trap.density]; norm_num
    · simp at hd
  · simp only [List.mem_cons, List.not_mem_nil, or_false] at hx
    subst hx
    simp [trapCount, Trap.density]; norm_num

end Arctic
