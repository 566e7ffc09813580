import Verif.Lemmas.FullReadout
import Verif.Lemmas.AddCti
import Verif.Props.ClockMore
import Verif.Props.ClockExamples

/-!
# C31, C32 — the account of the electrons
-/

set_option linter.unusedSectionVars false
set_option linter.unusedVariables false

namespace Arctic
open Finset

variable {K : Type} [Field K] [LinearOrder K] [IsStrictOrderedRing K]

/-- All passes over one column, within budget and with the account kept. -/
theorem passes_charge {tr : Prop} {F : (K → K) → Prop} {PO : ℕ → ℕ → List (Mgr K) → Prop}
    (hPO : PhaseInv tr (0 < ·) F PO) {img : Image K} {roe roe' : Roe K} {ccd : CcdView K}
    {groups : List (Group K)} {o : ℕ} {rows : List ℕ} {tw : Option (List ℕ)} {cfg : ClockCfg K}
    (hfull : FullReadout o rows tw roe) (hcfg : clockCfg roe ccd 0 o rows tw = .ok (cfg, roe')) (hccd : GoodFill ccd)
    (hF : ∀ ph < ccd.fractions.length, F (ccd.fill ph))
    (hnew : ∀ M, ∀ f ∈ ccd.fractions, PO M 0 (groups.map fun g => Mgr.new (fun j => g.dens j * f) g.kind M)) (c : ℕ)
    (h0 : ∀ r < img.nr, 0 ≤ img.px r c) :
    Sat (ChargeErr tr cfg) (fun st => ∃ u b, ChargeInv (NoSaves roe) PO (maxNTransfers roe cfg) c img.nr
        ccd.fractions.length (colSum img c) u b st)
      ((List.range cfg.expr.nr).foldlM (expressBody (atmSys ccd.fill) cfg c)
        (img, ATM.new groups ccd.fractions (maxNTransfers roe cfg))) := by
  obtain ⟨N, pos, h1, h2, h3, h4⟩ := fullReadout_cfg hfull hcfg
  obtain ⟨h5, h6, h7⟩ := unitCfg_of hcfg hccd h3
  have hB := chargeInv_budget hPO (ns := NoSaves roe) (N := N) (c := c) (R := img.nr)
    (Q := colSum img c) (fun ph hp => hF ph (h5.phases ph hp)) h6 h5 h4
  rw [h2]
  exact hB.passes h7 h1 _ (fun _ => 0) (chargeInv_new hPO (hnew _) h0 _)

theorem colSum_pad (img : Image K) (n c : ℕ) : colSum (img.pad n) c = colSum img c := by
  unfold colSum Image.pad
  simp only
  rw [Finset.sum_range_add, Finset.sum_congr rfl fun r hr => if_pos (mem_range.1 hr),
    Finset.sum_eq_zero (s := range n) fun r hr => if_neg (by omega), add_zero]

/-- Electrons of a column in rows from `n` on (the padding of the image). -/
def spill (img : Image K) (n c : ℕ) : K := ∑ r ∈ range (img.nr - n), img.px (n + r) c

theorem colSum_split (img : Image K) (n c : ℕ) (h : n ≤ img.nr) :
    colSum img c = (∑ r ∈ range n, img.px r c) + spill img n c := by
  unfold colSum spill
  rw [← Finset.sum_range_add, Nat.add_sub_cancel' h]

/-- The account of a column for managers that never take more electrons than there are. -/
theorem account_of {tr : Prop} {F : (K → K) → Prop} {PO : ℕ → ℕ → List (Mgr K) → Prop}
    (hPO : PhaseInv tr (0 < ·) F PO) (img out : Image K) (ccd : CcdView K) (roe roe' : Roe K) (groups : List (Group K))
    (o : ℕ) (rows columns : List ℕ) (tw : Option (List ℕ)) (hfull : FullReadout o rows tw roe)
    (hb : roe.emptyBetween = true) (hnd : columns.Nodup) (hccd : GoodFill ccd)
    (hF : ∀ ph < ccd.fractions.length, F (ccd.fill ph))
    (hnew : ∀ M, ∀ f ∈ ccd.fractions, PO M 0 (groups.map fun g => Mgr.new (fun j => g.dens j * f) g.kind M))
    (h : clockCharge img ccd roe groups 0 o rows columns tw = .ok (out, roe')) (c : ℕ) (hc : c ∈ columns)
    (h0 : ∀ r < img.nr, 0 ≤ img.px r c) :
    ∃ (cfg : ClockCfg K) (fin : Image K) (traps : ATM K), clockCfg roe ccd 0 o rows tw = .ok (cfg, roe') ∧
      (List.range cfg.expr.nr).foldlM (expressBody (atmSys ccd.fill) cfg c) (img.pad (nPadding roe.accessed),
        ATM.new groups ccd.fractions (maxNTransfers roe cfg)) = .ok (fin, traps) ∧
      (∀ r, out.px r c = fin.px r c) ∧ out.nr = img.nr ∧ (∀ r < fin.nr, 0 ≤ fin.px r c) ∧ 0 ≤ traps.currently ∧
      (NoSaves roe → 0 ≤ traps.previously) ∧
      colSum img c = colSum out c + spill fin img.nr c + (traps.previously + traps.currently) := by
  obtain ⟨cfg, st, h1, h2, rfl⟩ := clockCharge_ok h
  have hb' : cfg.emptyBetween = true := (clockCfg_fields h1).2.2.2.2.2.2.2.trans hb
  obtain ⟨o1, h3, h4⟩ := columns_split ccd.fill cfg hb' hnd (fresh_new _ _ _) h2 (fresh_new _ _ _) c hc
  rw [clockLoops_single] at h3
  unfold columnBody at h3
  obtain ⟨⟨fin, traps⟩, h5, h6⟩ := bind_eq_ok h3
  injection h6 with h6
  have hpad0 : ∀ r < (img.pad (nPadding roe.accessed)).nr, 0 ≤ (img.pad (nPadding roe.accessed)).px r c := by
    intro r _
    simp only [Image.pad]
    split
    · rename_i hr; exact h0 r hr
    · exact le_rfl
  obtain ⟨u, b, hI⟩ := (passes_charge hPO (img := img.pad (nPadding roe.accessed)) hfull h1 hccd hF hnew c hpad0).ok h5
  have hpx : ∀ r, st.1.px r c = fin.px r c := by
    intro r; rw [← h4.2.2 r, ← h6]
  have hnr : (st.1.unpad (nPadding roe.accessed)).nr = img.nr := (clockCharge_shape h).1
  refine ⟨cfg, fin, traps, h1, h5, hpx, hnr, hI.col.2.1, hI.currently_nonneg hPO, fun hn => (hI.noSave hn).2, ?_⟩
  have e1 := hI.col.2.2
  rw [colSum_pad] at e1
  simp only at e1
  have e2 := colSum_split fin img.nr c (by
    have : fin.nr = (img.pad (nPadding roe.accessed)).nr := hI.col.1
    rw [this]; simp [Image.pad])
  have e3 : colSum (st.1.unpad (nPadding roe.accessed)) c = ∑ r ∈ range img.nr, fin.px r c := by
    unfold colSum
    rw [hnr]
    exact Finset.sum_congr rfl fun r _ => hpx r
  rw [e3]
  linarith

/-- **C31**: with full readout and one group of instant-capture traps (and any number of phases), for every column the
electrons put in are those in the image returned, those left in the padding beyond the last row, and those still in
traps at the end of each pass, as counted by `n_electrons_trapped_previously + n_electrons_trapped_currently`. -/
theorem C31_account (img out : Image K) (ccd : CcdView K) (roe roe' : Roe K) (groups : List (Group K)) (o : ℕ)
    (rows columns : List ℕ) (tw : Option (List ℕ)) (hfull : FullReadout o rows tw roe)
    (hb : roe.emptyBetween = true) (hnd : columns.Nodup) (hccd : GoodFill ccd) (hone : groups.length ≤ 1)
    (hg : ∀ g ∈ groups, (∀ j, 0 ≤ g.dens j) ∧ g.kind.Ok (0 < ·))
    (h : clockCharge img ccd roe groups 0 o rows columns tw = .ok (out, roe')) (c : ℕ) (hc : c ∈ columns)
    (h0 : ∀ r < img.nr, 0 ≤ img.px r c) :
    ∃ (cfg : ClockCfg K) (fin : Image K) (traps : ATM K), clockCfg roe ccd 0 o rows tw = .ok (cfg, roe') ∧
      (List.range cfg.expr.nr).foldlM (expressBody (atmSys ccd.fill) cfg c) (img.pad (nPadding roe.accessed),
        ATM.new groups ccd.fractions (maxNTransfers roe cfg)) = .ok (fin, traps) ∧
      (∀ r, out.px r c = fin.px r c) ∧ out.nr = img.nr ∧ (∀ r < fin.nr, 0 ≤ fin.px r c) ∧ 0 ≤ traps.currently ∧
      (NoSaves roe → 0 ≤ traps.previously) ∧
      colSum img c = colSum out c + spill fin img.nr c + (traps.previously + traps.currently) := by
  exact account_of (phaseOk_inv True _) img out ccd roe roe' groups o rows columns tw hfull hb hnd hccd
    (fun ph hp => (hccd.2 ph hp).2)
    (fun M f hf => phaseOk_new hone (fun g hgm => ⟨(hg g hgm).1, (hg g hgm).2, fun _ => trivial⟩) (hccd.1 f hf)) h c hc h0

/-- **C31**: so if no trap states are carried from pass to pass (first transfers with empty traps, or charge
injection), no column gains electrons. -/
theorem C31_no_creation (img out : Image K) (ccd : CcdView K) (roe roe' : Roe K) (groups : List (Group K)) (o : ℕ)
    (rows columns : List ℕ) (tw : Option (List ℕ)) (hfull : FullReadout o rows tw roe) (hns : NoSaves roe)
    (hb : roe.emptyBetween = true) (hnd : columns.Nodup) (hccd : GoodFill ccd) (hone : groups.length ≤ 1)
    (hg : ∀ g ∈ groups, (∀ j, 0 ≤ g.dens j) ∧ g.kind.Ok (0 < ·))
    (h : clockCharge img ccd roe groups 0 o rows columns tw = .ok (out, roe')) (c : ℕ)
    (h0 : ∀ r < img.nr, 0 ≤ img.px r c) : colSum out c ≤ colSum img c := by
  by_cases hc : c ∈ columns
  · obtain ⟨cfg, fin, traps, -, -, h3, h4, h5, h6, h7, h8⟩ := C31_account img out ccd roe roe' groups o rows columns tw
      hfull hb hnd hccd hone hg h c hc h0
    have hs : 0 ≤ spill fin img.nr c := Finset.sum_nonneg fun r hr => h5 _ (by have := mem_range.1 hr; omega)
    have := h7 hns
    rw [h8]
    linarith
  · unfold colSum
    rw [(clockCharge_shape h).1]
    exact Finset.sum_le_sum fun r hr => le_of_eq
      ((C27_columns img ccd roe groups 0 o rows columns tw hb hnd out roe' h).2 c hc r (mem_range.1 hr))

/-- All electrons of an image. -/
def total (img : Image K) : K := ∑ c ∈ range img.nc, ∑ r ∈ range img.nr, img.px r c

theorem total_transpose (img : Image K) : total img.transpose = total img := by
  unfold total Image.transpose
  exact Finset.sum_comm

/-- A direction of clocking with full readout in which first transfers have empty traps. -/
structure SafeDirection (d : Direction K) : Prop where
  express : d.express = 0
  roe : ∃ dw f i, d.roe = .standard dw true true f i
  ccd : GoodFill d.ccd
  one : d.groups.length ≤ 1
  groups : ∀ g ∈ d.groups, (∀ j, 0 ≤ g.dens j) ∧ g.kind.Ok (0 < ·)

/-- **C31**: `add_cti` never returns more electrons than it was given, in parallel and serial clocking alike, if first
transfers have empty traps. -/
theorem C31_add_cti (img out : Image K) (par ser par' ser' : Option (Direction K)) (o : ℕ) (pw sw : Window)
    (h : addCti img par o pw ser sw none = .ok (out, par', ser'))
    (hp : ∀ d ∈ par, SafeDirection d) (hs : ∀ d ∈ ser, SafeDirection d)
    (hpw : (pw.resolve img.nr).Nodup) (hsw : (sw.resolve img.nc).Nodup) (hin : ∀ x ∈ pw.resolve img.nr, x < img.nr)
    (h0 : img.NonNeg) : total out ≤ total img := by
  obtain ⟨sc, mid, hsc, h1, h2⟩ := addCti_ok h
  have hsc' : sc = pw.resolve img.nr := by
    rcases hsc with ⟨-, rfl⟩ | ⟨t, ht, -⟩
    · rfl
    · cases ht
  subst hsc'
  have key : ∀ (d : Direction K) (i out : Image K) (roe' : Roe K) (q : ℕ) (rows columns : List ℕ)
      (tw : Option (List ℕ)), SafeDirection d → Covering q rows tw → columns.Nodup → i.NonNeg →
      clockCharge i d.ccd d.roe d.groups d.express q rows columns tw = .ok (out, roe') → total out ≤ total i := by
    intro d i out roe' q rows columns tw hd hcov hnd hnn hclk
    obtain ⟨dw, f, b, hroe⟩ := hd.roe
    rw [hd.express] at hclk
    have hnc := (clockCharge_shape hclk).2
    unfold total
    rw [hnc]
    refine Finset.sum_le_sum fun c hc => ?_
    exact C31_no_creation i out d.ccd d.roe roe' d.groups q rows columns tw (by rw [hroe]; exact ⟨hcov, Or.inl rfl⟩)
      (by rw [hroe]; rfl) (by rw [hroe]; rfl) hnd hd.ccd hd.one hd.groups hclk c fun r hr => hnn r hr c (mem_range.1 hc)
  have hmid : total mid ≤ total img ∧ mid.NonNeg := by
    rcases h1 with ⟨-, rfl, -⟩ | ⟨d, roe', rfl, -, hclk⟩
    · exact ⟨le_rfl, h0⟩
    · refine ⟨key d img mid roe' o _ _ _ (hp d rfl) (Or.inr ⟨img.nr, rfl, hin⟩) hsw h0 hclk, ?_⟩
      exact clockCharge_nonneg _ _ _ _ _ _ _ _ _ _ _ hclk h0
  rcases h2 with ⟨-, rfl, -⟩ | ⟨d, roe', res, rfl, -, rfl, hclk⟩
  · exact hmid.1
  · have := key d mid.transpose res roe' d.offset _ _ _ (hs d rfl) (Or.inl rfl) hpw (fun r hr c hc => hmid.2 c hc r hr) hclk
    rw [total_transpose]
    rw [total_transpose] at this
    exact this.trans hmid.1

/-! ### examples -/

theorem goodFill_exCcd : GoodFill exCcd :=
  ⟨by decide +kernel, fun _ _ => ⟨fill100_model, fill100_pos⟩⟩

/-- Clocking of the examples: traps are emptied for first transfers. -/
def exSafe : Direction ℚ := ⟨exCcd, .standard [1] true true true false, [exGroup], 0, 0⟩

/-- The hypotheses of `C31_add_cti` hold for `exSafe`, and electrons do leave the image. -/
example : SafeDirection exSafe :=
  ⟨rfl, ⟨_, _, _, rfl⟩, goodFill_exCcd, le_rfl, by
    intro g hg
    rcases List.mem_singleton.1 hg with rfl
    exact ⟨fun _ => by change (0 : ℚ) ≤ 10; norm_num, fun _ _ _ => by norm_num⟩⟩

example : ((addCti (exImg 2 1 [[80], [0]]) (some exSafe) 0 .all none .all none).map
    fun x => x.1.rows) = .ok [[72], [171 / 50]] := by decide +kernel

/-- **C31** is *false* if trap states are carried from pass to pass (`empty_traps_for_first_transfers = False`): 100
electrons become more than 106. (A restored state can hold more electrons than the traps held at the end of the pass
before: what they released in between is in the image already.) -/
theorem C31_saved_states_false :
    ((addCti (exImg 3 1 [[100], [0], [0]]) (some ⟨exCcd, exRoe, [exGroup], 0, 0⟩) 0 .all none .all none).map
      fun x => x.1.rows) = .ok [[90], [741 / 80], [234669 / 32000]] ∧
    (100 : ℚ) < 90 + 741 / 80 + 234669 / 32000 := by decide +kernel

/-! ## C32 — charge is created -/

/-- A notch: clouds of up to 40 electrons have no volume. -/
def fillNotch40 (n : ℚ) : ℚ := if n ≤ 40 then 0 else if 100 ≤ n then 1 else (n - 40) / 60

theorem fillModel_fillNotch40 : FillModel fillNotch40 := by
  refine ⟨fun n => ?_, fun n => ?_, fun n hn => ?_⟩ <;> unfold fillNotch40 <;> split
  · exact le_rfl
  · split
    · exact zero_le_one
    · linarith
  · exact zero_le_one
  · split
    · exact le_rfl
    · linarith
  · rfl
  · linarith

/-- 120 traps per pixel. -/
def exGroup120 : Group ℚ := ⟨1, fun _ => 120, .instant fun _ _ => 1 / 2⟩

/-- **C32** is *false*, first reason: three groups of species each capture from the whole cloud. The cloud of 50
electrons loses 60, is set to zero, and what was captured is returned to the pixels behind. -/
theorem C32_groups_false :
    ((addCti (exImg 4 1 [[50], [0], [0], [0]])
      (some ⟨⟨[1], fun _ => fillNotch40⟩, .standard [1] true true true false, [exGroup120, exGroup120, exGroup120], 0, 0⟩)
      0 .all none .all none).map fun x => x.1.rows) = .ok [[0], [30], [15], [15 / 2]] ∧
    (50 : ℚ) < 0 + 30 + 15 + 15 / 2 := by decide +kernel

/-- **C32** is *false*, second reason: negative pixels are set to zero as soon as something is returned to them. -/
theorem C32_negative_false :
    ((addCti (exImg 2 1 [[-5], [5]]) (some ⟨exCcd, .standard [1] true true true false, [exGroup], 0, 0⟩)
      0 .all none .all none).map fun x => x.1.rows) = .ok [[0], [81 / 20]] ∧
    (-5 + 5 : ℚ) < 0 + 81 / 20 := by decide +kernel

/-- **C32** is *false*, third reason: saved trap states. With an offset the state saved after the first row is
restored for that same row in each of the passes before the first row has been read out. -/
theorem C32_offset_false :
    ((addCti (exImg 2 1 [[100], [0]]) (some ⟨exCcd, exRoe, [exGroup], 0, 0⟩) 2 .all none .all none).map
      fun x => x.1.rows) = .ok [[28917 / 320], [175883 / 10240]] ∧
    (100 : ℚ) < 28917 / 320 + 175883 / 10240 := by decide +kernel

/-- **C32**, what is true: one group of instant-capture traps, non-negative image, full readout with empty traps for
first transfers. -/
theorem C32_one_group (img out : Image K) (par ser par' ser' : Option (Direction K)) (o : ℕ) (pw sw : Window)
    (h : addCti img par o pw ser sw none = .ok (out, par', ser'))
    (hp : ∀ d ∈ par, SafeDirection d) (hs : ∀ d ∈ ser, SafeDirection d)
    (hpw : (pw.resolve img.nr).Nodup) (hsw : (sw.resolve img.nc).Nodup) (hin : ∀ x ∈ pw.resolve img.nr, x < img.nr)
    (h0 : img.NonNeg) : total out ≤ total img :=
  C31_add_cti img out par ser par' ser' o pw sw h hp hs hpw hsw hin h0

end Arctic
