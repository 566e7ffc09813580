import Verif.Props.PixelChange
import Verif.Props.Causality
import Verif.Props.Charge
import Verif.Props.FewTraps
import Verif.Props.EndToEnd
import Verif.Props.Converge

/-!
# C85 — traps only delay charge

CTI moves charge to pixels that are read out later, never to earlier ones: the first rows together never gain.
-/

set_option linter.unusedSectionVars false
set_option linter.unusedVariables false

namespace Arctic
open Finset

variable {K : Type} [Field K] [LinearOrder K] [IsStrictOrderedRing K]

/-! ### sums with weights -/

/-- If the first entries of `a` together never exceed those of `b`, neither do they with weights that fall. -/
theorem weighted_prefix (n : ℕ) (a b w : ℕ → K) (hw0 : ∀ r, 0 ≤ w r) (hw : Antitone w)
    (h : ∀ R ≤ n, ∑ r ∈ range R, a r ≤ ∑ r ∈ range R, b r) :
    ∑ r ∈ range n, w r * a r ≤ ∑ r ∈ range n, w r * b r := by
  have key : ∀ m ≤ n, w (m - 1) * (∑ r ∈ range m, b r - ∑ r ∈ range m, a r) ≤
      ∑ r ∈ range m, w r * b r - ∑ r ∈ range m, w r * a r := by
    intro m
    induction m with
    | zero => intro _; simp
    | succ m ih =>
      intro hm
      have h1 := ih (by omega)
      have h2 : w (m + 1 - 1) * (∑ r ∈ range m, b r - ∑ r ∈ range m, a r) ≤
          w (m - 1) * (∑ r ∈ range m, b r - ∑ r ∈ range m, a r) :=
        mul_le_mul_of_nonneg_right (hw (by omega)) (sub_nonneg.2 (h m (by omega)))
      simp only [Finset.sum_range_succ]
      simp only [Nat.add_sub_cancel] at h2 ⊢
      linarith
  have h1 := key n le_rfl
  have h2 := mul_nonneg (hw0 (n - 1)) (sub_nonneg.2 (h n le_rfl))
  linarith

/-- All electrons, counted with a weight for every pixel. -/
def weighted (w : ℕ → ℕ → K) (img : Image K) : K := ∑ r ∈ range img.nr, ∑ c ∈ range img.nc, w r c * img.px r c

/-- Weights that are not negative and do not rise with the row nor with the column. -/
structure Falling (w : ℕ → ℕ → K) : Prop where
  nonneg : ∀ r c, 0 ≤ w r c
  row : ∀ c, Antitone fun r => w r c
  col : ∀ r, Antitone fun c => w r c

/-! ### one direction -/

/-- An image with the rows from `R` on set to zero. -/
def Image.upTo (img : Image K) (R : ℕ) : Image K := { img with px := fun r c => if r < R then img.px r c else 0 }

theorem Image.upTo_nonneg {img : Image K} (h : img.NonNeg) (R : ℕ) : (img.upTo R).NonNeg := by
  intro r hr c hc
  simp only [Image.upTo]
  split
  · exact h r hr c hc
  · exact le_rfl

theorem prefix_delay (img out : Image K) (ccd : CcdView K) (roe roe' : Roe K) (groups : List (Group K)) (e o : ℕ)
    (rows columns : List ℕ) (tw : Option (List ℕ)) (hf : roe.force = true) (hb : roe.emptyBetween = true)
    (hsv : SavesSoundly roe tw) (hrows : rows.Pairwise (· < ·)) (himg : img.NonNeg)
    (hrun : ∀ R, ∃ i r', clockCharge (img.upTo R) ccd roe groups e o rows columns tw = .ok (i, r'))
    (hno : ∀ (i out : Image K) (r' : Roe K), i.NonNeg → i.nr = img.nr → i.nc = img.nc →
      clockCharge i ccd roe groups e o rows columns tw = .ok (out, r') → ∀ c < img.nc, colSum out c ≤ colSum i c)
    (h : clockCharge img ccd roe groups e o rows columns tw = .ok (out, roe')) (c : ℕ) (hc : c < img.nc) :
    ∀ R ≤ img.nr, ∑ r ∈ range R, out.px r c ≤ ∑ r ∈ range R, img.px r c := by
  intro R hR
  cases R with
  | zero => simp
  | succ R =>
    obtain ⟨i, r', hi⟩ := hrun (R + 1)
    have hsh := clockCharge_shape hi
    have hag := C35_clocking img (img.upTo (R + 1)) ccd roe groups e o rows columns tw hf hb hsv hrows rfl R (by omega)
      (fun r hr c => by simp only [Image.upTo]; rw [if_pos (by omega)]) out i roe' r' h hi
    have hle := hno (img.upTo (R + 1)) i r' (Image.upTo_nonneg himg (R + 1)) rfl rfl hi c hc
    have hnn := clockCharge_nonneg _ _ _ _ _ _ _ _ _ _ _ hi (Image.upTo_nonneg himg (R + 1))
    have e1 : ∑ r ∈ range (R + 1), out.px r c = ∑ r ∈ range (R + 1), i.px r c :=
      Finset.sum_congr rfl fun r hr => hag r (by have := mem_range.1 hr; omega) c
    have e2 : ∑ r ∈ range (R + 1), i.px r c ≤ colSum i c := by
      unfold colSum
      refine Finset.sum_le_sum_of_subset_of_nonneg (fun x hx => mem_range.2 ?_) fun r hr _ => hnn r (mem_range.1 hr) c ?_
      · have := mem_range.1 hx
        rw [hsh.1]
        change x < img.nr
        omega
      · rw [hsh.2]; exact hc
    have e3 : colSum (img.upTo (R + 1)) c = ∑ r ∈ range (R + 1), img.px r c := by
      unfold colSum
      change ∑ r ∈ range img.nr, (if r < R + 1 then img.px r c else 0) = _
      rw [← Finset.sum_filter]
      refine Finset.sum_congr ?_ fun _ _ => rfl
      ext x
      simp only [mem_filter, mem_range]
      omega
    rw [e1, ← e3]
    exact e2.trans hle

/-- **C85** for one column of one direction: standard readout with empty traps in first transfers, or charge injection; one
group of instant-capture traps, `express = 0`. -/
theorem C85_clock (img out : Image K) (ccd : CcdView K) (roe roe' : Roe K) (groups : List (Group K)) (o : ℕ)
    (rows columns : List ℕ) (tw : Option (List ℕ)) (hfull : FullReadout o rows tw roe) (hns : NoSaves roe)
    (hf : roe.force = true) (hb : roe.emptyBetween = true) (hrows : rows.Pairwise (· < ·)) (hndc : columns.Nodup)
    (hr : RowsFound rows roe) (hrr : ∀ w ∈ rows, w < img.nr) (hcols : ∀ c ∈ columns, c < img.nc)
    (hlen : ccd.fractions.length ≤ roe.nPhases) (hccd : GoodFill ccd) (hone : groups.length ≤ 1)
    (hg : ∀ g ∈ groups, ((∀ j, 0 ≤ g.dens j) ∧ g.kind.Ok (0 < ·)) ∧ ¬ g.kind.isTrack) (himg : img.NonNeg)
    (h : clockCharge img ccd roe groups 0 o rows columns tw = .ok (out, roe')) (c : ℕ) (hc : c < img.nc) :
    ∀ R ≤ img.nr, ∑ r ∈ range R, out.px r c ≤ ∑ r ∈ range R, img.px r c := by
  have hm : ∃ x, clockCfg roe ccd 0 o rows tw = .ok x := by
    obtain ⟨cfg, st, h1, -, -⟩ := clockCharge_ok h
    exact ⟨_, h1⟩
  have hsv : SavesSoundly roe tw := by
    cases roe with
    | standard dw ef eb f i => exact Or.inl hns
    | injection => trivial
    | pumping => exact hns.elim
  refine prefix_delay img out ccd roe roe' groups 0 o rows columns tw hf hb hsv hrows himg (fun R => ?_) ?_ h c hc
  · have hlow : ∀ w ∈ rows, ∀ z ∈ roe.accessed, 0 ≤ (w : ℤ) + z := by
      intro w _ z hz
      have := (C14_accessed roe z hz).1 hf
      omega
    rcases C51_clock (img.upTo R) ccd roe groups 0 o rows columns tw hm (Or.inl hns) hb hr hrr hcols hlow hlen hccd.1
      (fun ph hp => (hccd.2 ph hp).1) (fun g hgm => (hg g hgm).1) with hok | ⟨⟨g, hgm, ht⟩, -⟩
    · exact hok
    · exact absurd ht (hg g hgm).2
  · intro i1 o1 r1 hnn hnr hnc hclk c' hc'
    exact C31_no_creation i1 o1 ccd roe r1 groups o rows columns tw hfull hns hb hndc hccd hone (fun g hgm => (hg g hgm).1)
      hclk c' fun r hr => hnn r hr c' (by omega)

/-! ### both directions -/

/-- Clocking that takes images without negative pixels to such images, of the same size, in which the first rows of no
column have gained. -/
structure DelaysTo (img out : Image K) : Prop where
  nr : out.nr = img.nr
  nc : out.nc = img.nc
  nonneg : out.NonNeg
  delay : ∀ c < img.nc, ∀ R ≤ img.nr, ∑ r ∈ range R, out.px r c ≤ ∑ r ∈ range R, img.px r c

theorem DelaysTo.refl {img : Image K} (h : img.NonNeg) : DelaysTo img img := ⟨rfl, rfl, h, fun _ _ _ _ => le_rfl⟩

theorem DelaysTo.weighted {img out : Image K} (h : DelaysTo img out) {w : ℕ → ℕ → K} (hw : Falling w) :
    weighted w out ≤ weighted w img := by
  unfold Arctic.weighted
  rw [h.nr, h.nc, Finset.sum_comm, Finset.sum_comm (s := range img.nr)]
  refine Finset.sum_le_sum fun c hc => ?_
  exact weighted_prefix img.nr (fun r => out.px r c) (fun r => img.px r c) (fun r => w r c) (fun r => hw.nonneg r c)
    (hw.row c) fun R hR => h.delay c (mem_range.1 hc) R hR

theorem weighted_transpose (w : ℕ → ℕ → K) (img : Image K) : weighted (fun c r => w r c) img.transpose = weighted w img := by
  unfold weighted Image.transpose
  exact Finset.sum_comm

theorem both_delay {img mid res : Image K} (h1 : DelaysTo img mid) (h2 : DelaysTo mid.transpose res) {w : ℕ → ℕ → K}
    (hw : Falling w) : weighted w res.transpose ≤ weighted w img := by
  have a := h1.weighted hw
  have b := h2.weighted (w := fun c r => w r c) ⟨fun c r => hw.nonneg r c, hw.col, hw.row⟩
  rw [weighted_transpose] at b
  have e : weighted w res.transpose = weighted (fun c r => w r c) res := by
    rw [← weighted_transpose]; rfl
  rw [e]
  exact b.trans a

/-- A direction with one group of instant-capture traps, full readout and empty traps in first transfers. -/
structure DelayDirection (rows : List ℕ) (d : Direction K) : Prop where
  safe : SafeDirection d
  runs : RunsDirection rows d
  times : ∀ g ∈ d.groups, ¬ g.kind.isTrack

theorem DelayDirection.delays {rows : List ℕ} {d : Direction K} (h : DelayDirection rows d) {img out : Image K} {o : ℕ}
    {columns : List ℕ} {tw : Option (List ℕ)} {roe' : Roe K} (hcov : Covering o rows tw) (hp : rows.Pairwise (· < ·))
    (hndc : columns.Nodup) (hrows : ∀ w ∈ rows, w < img.nr) (hcols : ∀ c ∈ columns, c < img.nc) (h0 : img.NonNeg)
    (hr : clockCharge img d.ccd d.roe d.groups d.express o rows columns tw = .ok (out, roe')) : DelaysTo img out := by
  have hsh := clockCharge_shape hr
  refine ⟨hsh.1, hsh.2, clockCharge_nonneg _ _ _ _ _ _ _ _ _ _ _ hr h0, fun c hc => ?_⟩
  obtain ⟨dw, i, hroe, hlen⟩ := h.runs.roe
  have hne : rows ≠ [] := by
    rintro rfl
    obtain ⟨cfg, st, h1, -, -⟩ := clockCharge_ok hr
    have f1 := (clockCfg_fields h1).1
    rw [hroe] at f1
    simp only [Roe.express] at f1
    obtain ⟨x, g1, -⟩ := bind_eq_ok f1
    obtain ⟨a, ha, -⟩ := roeExpress_ok g1
    exact absurd ha (by simp)
  refine prefix_delay img out d.ccd d.roe roe' d.groups d.express o rows columns tw (by rw [hroe]; rfl)
    (by rw [hroe]; rfl) (by rw [hroe]; exact Or.inl rfl) hp h0 (fun R => ?_) ?_ hr c hc
  · have ht : ∀ t ∈ tw, t ≠ [] := by
      intro t ht hnil
      subst hnil
      rcases hcov with h1 | ⟨N, h1, h2⟩
      · rw [h1] at ht; cases ht
      · rw [h1] at ht
        simp only [Option.mem_def, Option.some.injEq, List.range_eq_nil] at ht
        obtain ⟨w, l, hw⟩ := List.exists_cons_of_ne_nil hne
        have := h2 w (by rw [hw]; exact List.mem_cons_self)
        omega
    rcases h.runs.run (img.upTo R) o columns tw hne ht hrows hcols with hok | ⟨⟨g, hg, ht⟩, -⟩
    · exact hok
    · exact absurd ht (h.times g hg)
  · intro i1 o1 r1 hnn hnr hnc hclk c' hc'
    rw [h.safe.express] at hclk
    exact C31_no_creation i1 o1 d.ccd d.roe r1 d.groups o rows columns tw (by rw [hroe]; exact ⟨hcov, Or.inl rfl⟩)
      (by rw [hroe]; rfl) (by rw [hroe]; rfl) hndc h.safe.ccd h.safe.one h.safe.groups hclk c' fun r hr =>
        hnn r hr c' (by omega)

/-- **C85** for `add_cti`: counted with any weights that do not rise with row or column, the image returned never holds
more than the image given. With the weights 1 and 0: no corner of the image towards the registers gains. -/
theorem C85_add_cti (img out : Image K) (par ser par' ser' : Option (Direction K)) (o : ℕ) (pw sw : Window)
    (hp : ∀ d ∈ par, DelayDirection (pw.resolve img.nr) d) (hs : ∀ d ∈ ser, DelayDirection (sw.resolve img.nc) d)
    (hpn : (pw.resolve img.nr).Pairwise (· < ·)) (hsn : (sw.resolve img.nc).Pairwise (· < ·))
    (hpr : ∀ w ∈ pw.resolve img.nr, w < img.nr) (hsr : ∀ w ∈ sw.resolve img.nc, w < img.nc)
    (h : addCti img par o pw ser sw none = .ok (out, par', ser')) (h0 : img.NonNeg) {w : ℕ → ℕ → K} (hw : Falling w) :
    weighted w out ≤ weighted w img := by
  obtain ⟨serCols, mid, hsc, h1, h2⟩ := addCti_ok h
  have hsc' : serCols = pw.resolve img.nr := by
    rcases hsc with ⟨-, e⟩ | ⟨t, e, -⟩
    · exact e
    · cases e
  subst hsc'
  have hnd : ∀ {l : List ℕ}, l.Pairwise (· < ·) → l.Nodup := fun h => h.imp fun h => ne_of_lt h
  have hmid : DelaysTo img mid := by
    rcases h1 with ⟨rfl, rfl, rfl⟩ | ⟨d, roe', rfl, rfl, hr⟩
    · exact DelaysTo.refl h0
    · exact (hp d rfl).delays (Or.inr ⟨img.nr, rfl, hpr⟩) hpn (hnd hsn) hpr hsr h0 hr
  rcases h2 with ⟨rfl, rfl, rfl⟩ | ⟨d, roe', res, rfl, rfl, rfl, hr⟩
  · exact hmid.weighted hw
  · refine both_delay hmid ((hs d rfl).delays (Or.inl rfl) hsn (hnd hpn)
      (fun w hw => by change w < mid.nc; rw [hmid.nc]; exact hsr w hw)
      (fun w hw => by change w < mid.nr; rw [hmid.nr]; exact hpr w hw)
      (fun r hr c hc => hmid.nonneg c hc r hr) hr) hw

theorem falling_corner (R C : ℕ) : Falling (K := K) fun r c => if r < R ∧ c < C then 1 else 0 := by
  refine ⟨fun r c => by split <;> norm_num, fun c a b hab => ?_, fun r a b hab => ?_⟩ <;> dsimp only <;>
    split <;> split <;> first | exact le_rfl | exact zero_le_one | (exfalso; omega)

theorem weighted_corner (img : Image K) (R C : ℕ) (hR : R ≤ img.nr) (hC : C ≤ img.nc) :
    weighted (fun r c => if r < R ∧ c < C then 1 else 0) img = ∑ r ∈ range R, ∑ c ∈ range C, img.px r c := by
  unfold weighted
  have e1 : ∀ r, ∑ c ∈ range img.nc, (if r < R ∧ c < C then (1 : K) else 0) * img.px r c =
      if r < R then ∑ c ∈ range C, img.px r c else 0 := by
    intro r
    by_cases hr : r < R
    · simp only [hr, true_and, if_true, ite_mul, one_mul, zero_mul]
      rw [← Finset.sum_filter]
      refine Finset.sum_congr ?_ fun _ _ => rfl
      ext x
      simp only [mem_filter, mem_range]
      omega
    · simp [hr]
  simp only [e1]
  rw [← Finset.sum_filter]
  refine Finset.sum_congr ?_ fun _ _ => rfl
  ext x
  simp only [mem_filter, mem_range]
  omega

/-- **C85**, corners: the first `R` rows and `C` columns together never gain. -/
theorem C85_corner (img out : Image K) (par ser par' ser' : Option (Direction K)) (o : ℕ) (pw sw : Window)
    (hp : ∀ d ∈ par, DelayDirection (pw.resolve img.nr) d) (hs : ∀ d ∈ ser, DelayDirection (sw.resolve img.nc) d)
    (hpn : (pw.resolve img.nr).Pairwise (· < ·)) (hsn : (sw.resolve img.nc).Pairwise (· < ·))
    (hpr : ∀ w ∈ pw.resolve img.nr, w < img.nr) (hsr : ∀ w ∈ sw.resolve img.nc, w < img.nc)
    (h : addCti img par o pw ser sw none = .ok (out, par', ser')) (h0 : img.NonNeg) (R C : ℕ) (hR : R ≤ img.nr)
    (hC : C ≤ img.nc) :
    ∑ r ∈ range R, ∑ c ∈ range C, out.px r c ≤ ∑ r ∈ range R, ∑ c ∈ range C, img.px r c := by
  have hsh := addCti_shape h
  rw [← weighted_corner img R C hR hC, ← weighted_corner out R C (by omega) (by omega)]
  exact C85_add_cti img out par ser par' ser' o pw sw hp hs hpn hsn hpr hsr h h0 (falling_corner R C)

theorem falling_rows (n : ℕ) : Falling (K := K) fun r _ => ((n - r : ℕ) : K) := by
  refine ⟨fun r c => Nat.cast_nonneg _, fun c a b hab => ?_, fun r a b hab => le_rfl⟩
  dsimp only
  exact_mod_cast (by omega : n - b ≤ n - a)

theorem weighted_rows (img : Image K) :
    weighted (fun r _ => ((img.nr - r : ℕ) : K)) img = img.nr * total img - ∑ r ∈ range img.nr, ∑ c ∈ range img.nc,
      (r : K) * img.px r c := by
  unfold weighted total
  rw [Finset.sum_comm (s := range img.nc), Finset.mul_sum, ← Finset.sum_sub_distrib]
  refine Finset.sum_congr rfl fun r hr => ?_
  rw [Finset.mul_sum, ← Finset.sum_sub_distrib]
  refine Finset.sum_congr rfl fun c _ => ?_
  dsimp only
  rw [Nat.cast_sub (mem_range.1 hr).le]
  ring

/-- **C85**, centroids: the sum of row numbers times charge never falls, if the charge that is not in the image any more
counts with the number of rows, that is as lying right behind the last row. -/
theorem C85_centroid (img out : Image K) (par ser par' ser' : Option (Direction K)) (o : ℕ) (pw sw : Window)
    (hp : ∀ d ∈ par, DelayDirection (pw.resolve img.nr) d) (hs : ∀ d ∈ ser, DelayDirection (sw.resolve img.nc) d)
    (hpn : (pw.resolve img.nr).Pairwise (· < ·)) (hsn : (sw.resolve img.nc).Pairwise (· < ·))
    (hpr : ∀ w ∈ pw.resolve img.nr, w < img.nr) (hsr : ∀ w ∈ sw.resolve img.nc, w < img.nc)
    (h : addCti img par o pw ser sw none = .ok (out, par', ser')) (h0 : img.NonNeg) :
    ∑ r ∈ range img.nr, ∑ c ∈ range img.nc, (r : K) * img.px r c ≤
      ∑ r ∈ range img.nr, ∑ c ∈ range img.nc, (r : K) * out.px r c + img.nr * (total img - total out) := by
  have hsh := addCti_shape h
  have := C85_add_cti img out par ser par' ser' o pw sw hp hs hpn hsn hpr hsr h h0 (falling_rows img.nr)
  have e := weighted_rows out
  rw [hsh.1, hsh.2] at e
  rw [weighted_rows, e] at this
  linarith

/-- **C85** for `remove_cti`, one iteration, or any number if every pixel holds at least what it can change by (C84): the
correction moves charge to pixels that are read out earlier. -/
theorem C85_remove_cti (img out : Image K) (n : ℕ) (par ser par' ser' : Option (Direction K)) (o : ℕ) (pw sw : Window)
    (hp : ∀ d ∈ par, DelayDirection (pw.resolve img.nr) d) (hs : ∀ d ∈ ser, DelayDirection (sw.resolve img.nc) d)
    (hpn : (pw.resolve img.nr).Pairwise (· < ·)) (hsn : (sw.resolve img.nc).Pairwise (· < ·))
    (hpr : ∀ w ∈ pw.resolve img.nr, w < img.nr) (hsr : ∀ w ∈ sw.resolve img.nc, w < img.nc)
    (h : removeCti img n par o pw ser sw none = .ok (out, par', ser')) (h0 : img.NonNeg)
    (hbright : n ≤ 1 ∨ ∀ r < img.nr, ∀ c < img.nc, mostChange par ser o r c ≤ img.px r c)
    {w : ℕ → ℕ → K} (hw : Falling w) : weighted w img ≤ weighted w out := by
  have hnd : ∀ {l : List ℕ}, l.Pairwise (· < ·) → l.Nodup := fun h => h.imp fun h => ne_of_lt h
  cases n with
  | zero =>
    rw [C36_zero] at h
    injection h with h
    injection h with h1 h2
    rw [h1]
  | succ n =>
    obtain ⟨cur, p, s, added, h1, h2, h3, h4, h5⟩ := (C36_iteration img n par ser o pw sw none out par' ser').1 h
    have hcur := C84_remove_cti img cur n par ser p s o pw sw (fun d hd => (hp d hd).runs) (fun d hd => (hs d hd).runs)
      (hnd hpn) (hnd hsn) hpr hsr h1
    obtain ⟨⟨c1, c2, rfl, rfl⟩, c4⟩ := hcur
    have hnn : cur.NonNeg := by
      rcases hbright with hle | hbr
      · obtain rfl : n = 0 := by omega
        rw [C36_zero] at h1
        injection h1 with h1
        injection h1 with e1 e2
        rw [← e1]
        exact h0
      · intro r hr c hc
        have b := hbr r (by omega) c (by omega)
        have a := (abs_le.1 (c4 r (by omega) c (by omega) (h0 r (by omega) c (by omega)) (Or.inr b))).1
        linarith
    have hadd := C85_add_cti cur added p s par' ser' o pw sw (by rw [c1]; exact hp) (by rw [c2]; exact hs)
      (by rw [c1]; exact hpn) (by rw [c2]; exact hsn) (by rw [c1]; exact hpr) (by rw [c2]; exact hsr) h2 hnn hw
    have hsh := addCti_shape h2
    have e : weighted w out = weighted w cur + weighted w img - weighted w added := by
      unfold weighted
      rw [h3, h4, hsh.1, hsh.2, c1, c2, ← Finset.sum_add_distrib, ← Finset.sum_sub_distrib]
      refine Finset.sum_congr rfl fun r _ => ?_
      rw [← Finset.sum_add_distrib, ← Finset.sum_sub_distrib]
      refine Finset.sum_congr rfl fun c _ => ?_
      rw [h5 r c]
      ring
    rw [e]
    linarith

/-! ### few traps of any kind, with Python objects -/

theorem FewObjects.delays {D : ℝ} {c : CCD} {dw : List ℝ} {i : Bool} {gs : List (List Trap)} (h : FewObjects D c dw i gs)
    (img : Image ℝ) (himg : img.NonNeg) (o : ℕ) (rows columns : List ℕ) (tw : Option (List ℕ)) (hne : rows ≠ [])
    (hp : rows.Pairwise (· < ·)) (hrows : ∀ w ∈ rows, w < img.nr) (hcols : ∀ c ∈ columns, c < img.nc) (hnd : columns.Nodup)
    (hcov : Covering o rows tw) :
    ∃ out roe', clockChargePy img (some c) (.standard dw true true true i) (.list (gs.map .group)) 0 o rows columns tw =
      .ok (out, roe') ∧ DelaysTo img out := by
  obtain ⟨out, roe', h1, h2, h3, h4, h5⟩ := C63_objects h img himg o rows columns tw hne hrows hcols hnd hcov
  refine ⟨out, roe', h1, h2, h3, h4, fun j hj => ?_⟩
  have e : ∀ i' : Image ℝ, clockChargePy i' (some c) (.standard dw true true true i) (.list (gs.map .group)) 0 o rows columns
      tw = clockCharge i' c.view (.standard dw true true true i) (gs.map groupOf) 0 o rows columns tw := fun i' =>
    clockChargePy_groups i' c _ gs h.objects.groups.1 (fun l hl => (h.objects.groups.2 l hl).ne_nil)
      h.objects.fractions.1 0 o rows columns tw
  rw [e] at h1
  refine prefix_delay img out c.view (.standard dw true true true i) roe' (gs.map groupOf) 0 o rows columns tw rfl rfl
    (Or.inl rfl) hp himg (fun R => ?_) ?_ h1 j hj
  · obtain ⟨o1, r1, q1, -⟩ := C63_objects h (img.upTo R) (Image.upTo_nonneg himg R) o rows columns tw hne hrows hcols hnd hcov
    rw [e] at q1
    exact ⟨o1, r1, q1⟩
  · intro i1 o1 r1 hnn hnr hnc hclk c' hc'
    obtain ⟨o2, r2, q1, -, -, -, q5⟩ := C63_objects h i1 hnn o rows columns tw hne (by rw [hnr]; exact hrows)
      (by rw [hnc]; exact hcols) hnd hcov
    rw [e, hclk] at q1
    injection q1 with q1
    injection q1 with q1 _
    rw [q1]
    exact q5 c' (by omega)

/-- **C85** for few traps of any kind, in any number of groups and with any number of phases (C63). -/
theorem C85_few_traps {D D' : ℝ} {c c' : CCD} {dw dw' : List ℝ} {i i' : Bool} {gs gs' : List (List Trap)}
    (hp : FewObjects D c dw i gs) (hs : FewObjects D' c' dw' i' gs') (img : Image ℝ) (himg : img.NonNeg)
    (o o' : ℕ) (pw sw : Window) (hpw : pw.resolve img.nr ≠ []) (hsw : sw.resolve img.nc ≠ [])
    (hpn : (pw.resolve img.nr).Pairwise (· < ·)) (hsn : (sw.resolve img.nc).Pairwise (· < ·))
    (hpr : ∀ w ∈ pw.resolve img.nr, w < img.nr) (hsr : ∀ w ∈ sw.resolve img.nc, w < img.nc) :
    ∃ out rp rs, addCtiPy img ⟨some c, some (.standard dw true true true i), some (.list (gs.map .group)), 0, o⟩ pw
        ⟨some c', some (.standard dw' true true true i'), some (.list (gs'.map .group)), 0, o'⟩ sw none =
        .ok (out, rp, rs) ∧ ∀ w : ℕ → ℕ → ℝ, Falling w → weighted w out ≤ weighted w img := by
  have hnd : ∀ {l : List ℕ}, l.Pairwise (· < ·) → l.Nodup := fun h => h.imp fun h => ne_of_lt h
  obtain ⟨mid, rp, m1, m2⟩ := hp.delays img himg o (pw.resolve img.nr) (sw.resolve img.nc)
    (some (List.range (img.nr + o))) hpw hpn hpr hsr (hnd hsn) (Or.inr ⟨img.nr, rfl, hpr⟩)
  obtain ⟨out, rs, o1, o2⟩ := hs.delays mid.transpose (fun r hr c hc => m2.nonneg c hc r hr) o'
    (sw.resolve img.nc) (pw.resolve img.nr) none hsw hsn (fun w hw => by change w < mid.nc; rw [m2.nc]; exact hsr w hw)
    (fun w hw => by change w < mid.nr; rw [m2.nr]; exact hpr w hw) (hnd hpn) (Or.inl rfl)
  refine ⟨out.transpose, rp, rs, ?_, fun w hw => both_delay m2 o2 hw⟩
  unfold addCtiPy
  simp only [Option.getD_some, Option.getD_none, bind, Except.bind, m1, o1]

/-! ### instant-capture traps with Python objects, and the HST preset -/

/-- The direction that the objects stand for. -/
noncomputable def directionOf (c : CCD) (dw : ℝ) (i : Bool) (gs : List (List Trap)) (e o : ℕ) : Direction ℝ :=
  ⟨c.view, .standard [dw] true true true i, gs.map groupOf, e, o⟩

theorem ExactObjects.groups_ok {full power dw : ℝ} {gs : List (List Trap)} {i : Bool} {c : CCD} {o : ℕ} {d : PyDirection}
    (h : ExactObjects full power dw gs i c o d) (g : Group ℝ) (hg : g ∈ gs.map groupOf) :
    ((∀ j, 0 ≤ g.dens j) ∧ g.kind.Ok (0 < ·)) ∧ ¬ g.kind.isTrack := by
  obtain ⟨l, hl, rfl⟩ := List.mem_map.1 hg
  have h7 := h.groups.2 l hl
  rw [Ref.ofTraps_group h7.1 h7.2]
  have hok := Ref.ofTraps_ok h7.2
  exact ⟨⟨hok.1, fun t ht j => ⟨(hok.2 t ht j).1, (hok.2 t ht j).2.le⟩⟩, fun h => h⟩

theorem ExactObjects.good {full power dw : ℝ} {gs : List (List Trap)} {i : Bool} {c : CCD} {o : ℕ} {d : PyDirection}
    (h : ExactObjects full power dw gs i c o d) : GoodFill c.view := by
  have hw := wellFill_exact h.full h.power
  refine ⟨fun x hx => ?_, fun ph hph => ?_⟩
  · change x ∈ c.fractions at hx
    rw [h.phase.1, List.mem_singleton] at hx
    rw [hx]
    exact zero_le_one
  · change ph < c.fractions.length at hph
    rw [h.phase.1] at hph
    obtain rfl : ph = 0 := by simpa using hph
    rw [CCD.view_fill h.phase.2 h.full h.power]
    exact hw

theorem ExactObjects.runs {full power dw : ℝ} {gs : List (List Trap)} {i : Bool} {c : CCD} {o : ℕ} {d : PyDirection}
    (h : ExactObjects full power dw gs i c o d) (e o' : ℕ) (rows : List ℕ) (he : ¬ ShortMatrix true rows e) :
    RunsDirection rows (directionOf c dw i gs e o') := by
  refine ⟨⟨_, _, rfl, ?_⟩, h.good.1, fun ph hph => (h.good.2 ph hph).1, fun g hg => (h.groups_ok g hg).1, he⟩
  change c.fractions.length ≤ 1
  rw [h.phase.1]
  exact le_rfl

theorem ExactObjects.clock {full power dw : ℝ} {gs : List (List Trap)} {i : Bool} {c : CCD} {o : ℕ} {d : PyDirection}
    (h : ExactObjects full power dw gs i c o d) (img : Image ℝ) (e o' : ℕ) (rows columns : List ℕ) (tw : Option (List ℕ)) :
    clockChargePy img (some c) (.standard [dw] true true true i) (.list (gs.map .group)) e o' rows columns tw =
      clockCharge img c.view (.standard [dw] true true true i) (gs.map groupOf) e o' rows columns tw :=
  clockChargePy_groups img c _ gs h.groups.1 (fun l hl => (h.groups.2 l hl).1) (by rw [h.phase.1]; simp) e o' rows columns tw

theorem ExactObjects.most {full power dw : ℝ} {gs : List (List Trap)} {i : Bool} {c : CCD} {o : ℕ} {d : PyDirection}
    (h : ExactObjects full power dw gs i c o d) (e o' n : ℕ) :
    (directionOf c dw i gs e o').most n = trapCount gs * n := by
  unfold Direction.most directionOf trapsPerPixel
  have e1 : ((gs.map groupOf).map fun g => ∑ j, g.dens j).sum = trapCount gs :=
    groupCount_objects gs fun l hl => (h.groups.2 l hl).1
  have e2 : c.view.fractions = [1] := h.phase.1
  simp only [e1, e2, Roe.dwell]
  simp

theorem ExactObjects.returns {full power dw : ℝ} {gs : List (List Trap)} {i : Bool} {c : CCD} {o : ℕ} {d : PyDirection}
    (h : ExactObjects full power dw gs i c o d) (img : Image ℝ) (hnr : 0 < img.nr) (e : ℕ) (he : e = 0 ∨ e + 1 ≠ img.nr) :
    ∃ out, addCtiPy img ⟨some c, some (.standard [dw] true true true i), some (.list (gs.map .group)), e, o⟩ .all .absent
        .all none = .ok (out, .standard [dw] true true true i, Roe.default) ∧
      clockCharge img c.view (.standard [dw] true true true i) (gs.map groupOf) e o (List.range img.nr) (List.range img.nc)
        (some (List.range (img.nr + o))) = .ok (out, .standard [dw] true true true i) := by
  have hmax : (List.range img.nr).max? = some (img.nr - 1) := by
    rw [List.max?_eq_some_iff]
    exact ⟨List.mem_range.2 (by omega), fun x hx => by have := List.mem_range.1 hx; omega⟩
  have hs : ¬ ShortMatrix true (List.range img.nr) e := by
    rintro ⟨-, h1, h2⟩
    rw [hmax] at h2
    injection h2 with h2
    rcases he with he | he
    · exact h1 he
    · omega
  obtain ⟨out, roe', hr⟩ : ∃ out roe', clockCharge img c.view (.standard [dw] true true true i) (gs.map groupOf) e o
      (List.range img.nr) (List.range img.nc) (some (List.range (img.nr + o))) = .ok (out, roe') := by
    rcases (h.runs e o (List.range img.nr) hs).run img o (List.range img.nc) (some (List.range (img.nr + o)))
      (fun h => by rw [List.range_eq_nil] at h; omega)
      (fun t ht h => by
        injection ht with ht
        rw [← ht, List.range_eq_nil] at h
        omega)
      (fun w hw => List.mem_range.1 hw) (fun w hw => List.mem_range.1 hw) with hok | ⟨⟨g, hg, ht⟩, -⟩
    · exact hok
    · exact absurd ht (h.groups_ok g hg).2
  obtain rfl := standard_same hr
  refine ⟨out, ?_, hr⟩
  unfold addCtiPy PyDirection.absent
  simp only [Window.resolve, bind, Except.bind, Option.getD_none, Option.getD_some]
  rw [h.clock, hr]

theorem hst_count {date : ℝ} {traps : List Trap} {ccd : CCD} {roe : Roe ℝ}
    (h : modelForHstAcs date = .ok (traps, ccd, roe)) : trapCount [traps] = hstTotalDensity date := by
  obtain ⟨d₁, d₂, d₃, τ₁, τ₂, τ₃, ht, -, -, -, -, -, hsum, -⟩ := C42_species date traps ccd _ h
  rw [← hsum, ht]
  simp [trapCount, Trap.density]
  ring

/-- **C84** for the HST preset, every date, image without negative pixels, express value (for which the code does not
raise) and offset: `add_cti` changes the pixels of row `r` by at most the trap density of the date times `r + offset + 1`. -/
theorem C84_hst (date : ℝ) (hd : 2452334.5 ≤ date) (img : Image ℝ) (hnr : 0 < img.nr) (himg : img.NonNeg) (e o : ℕ)
    (he : e = 0 ∨ e + 1 ≠ img.nr) :
    ∃ traps ccd roe out, modelForHstAcs date = .ok (traps, ccd, roe) ∧
      addCtiPy img ⟨some ccd, some roe, some (.list (traps.map .trap)), e, o⟩ .all .absent .all none =
        .ok (out, roe, Roe.default) ∧
      ∀ r < img.nr, ∀ c < img.nc, 0 ≤ out.px r c ∧
        |out.px r c - img.px r c| ≤ hstTotalDensity date * ((r + o + 1 : ℕ) : ℝ) := by
  obtain ⟨traps, ccd, h, hne, hx⟩ := hst_exact date hd o
  obtain ⟨out, g1, g2⟩ := hx.returns img hnr e he
  refine ⟨traps, ccd, _, out, h, (addCtiPy_trap_list img ⟨some ccd, some (.standard [1] true true true false), none, e, o⟩
    traps hne .all .absent .all none).trans g1, fun r hr c hc => ?_⟩
  have := C84_clock img out ccd.view [1] false _ ([traps].map groupOf) e o (List.range img.nr) (List.range img.nc)
    (some (List.range (img.nr + o))) (Or.inr ⟨img.nr, rfl, fun x hx => List.mem_range.1 hx⟩) List.nodup_range
    List.nodup_range (fun w hw => List.mem_range.1 hw) (fun w hw => List.mem_range.1 hw)
    (by change ccd.fractions.length ≤ 1; rw [hx.phase.1]; exact le_rfl) hx.good.1 (fun ph hph => (hx.good.2 ph hph).1)
    (fun g hg => (hx.groups_ok g hg).1) g2 r c hr (himg r hr c hc)
  refine ⟨this.1, this.2.trans (le_of_eq ?_)⟩
  have e1 := hx.most e o (r + o + 1)
  rw [hst_count h] at e1
  rw [← e1]
  unfold Direction.most directionOf
  simp only [Roe.dwell]
  push_cast
  ring

/-- **C85** for the HST preset: no image gains in its first rows, column by column. -/
theorem C85_hst (date : ℝ) (hd : 2452334.5 ≤ date) (img : Image ℝ) (hnr : 0 < img.nr) (himg : img.NonNeg) (o : ℕ) :
    ∃ traps ccd roe out, modelForHstAcs date = .ok (traps, ccd, roe) ∧
      addCtiPy img ⟨some ccd, some roe, some (.list (traps.map .trap)), 0, o⟩ .all .absent .all none =
        .ok (out, roe, Roe.default) ∧
      ∀ c < img.nc, ∀ R ≤ img.nr, ∑ r ∈ range R, out.px r c ≤ ∑ r ∈ range R, img.px r c := by
  obtain ⟨traps, ccd, h, hne, hx⟩ := hst_exact date hd o
  obtain ⟨out, g1, g2⟩ := hx.returns img hnr 0 (Or.inl rfl)
  refine ⟨traps, ccd, _, out, h, (addCtiPy_trap_list img ⟨some ccd, some (.standard [1] true true true false), none, 0, o⟩
    traps hne .all .absent .all none).trans g1, fun c hc => ?_⟩
  exact C85_clock img out ccd.view (.standard [1] true true true false) _ ([traps].map groupOf) o (List.range img.nr) (List.range img.nc)
    (some (List.range (img.nr + o))) ⟨Or.inr ⟨img.nr, rfl, fun x hx => List.mem_range.1 hx⟩, Or.inl rfl⟩ rfl rfl rfl
    List.pairwise_lt_range List.nodup_range trivial (fun w hw => List.mem_range.1 hw) (fun w hw => List.mem_range.1 hw)
    (by change ccd.fractions.length ≤ 1; rw [hx.phase.1]; exact le_rfl) hx.good (by simp) hx.groups_ok himg g2 c hc

/-! ### examples -/

example : DelayDirection (Window.all.resolve 3) exSafe := by
  have hg : ∀ g ∈ exSafe.groups, (∀ j, 0 ≤ g.dens j) ∧ g.kind.Ok (0 < ·) := by
    intro g hg
    rcases List.mem_singleton.1 hg with rfl
    exact ⟨fun _ => by change (0 : ℚ) ≤ 10; norm_num, fun _ _ _ => by norm_num⟩
  refine ⟨⟨rfl, ⟨_, _, _, rfl⟩, goodFill_exCcd, le_rfl, hg⟩, ⟨⟨_, _, rfl, by decide⟩, goodFill_exCcd.1,
    fun ph h => (goodFill_exCcd.2 ph h).1, hg, by rintro ⟨-, h, -⟩; exact h rfl⟩, ?_⟩
  intro g hg
  rcases List.mem_singleton.1 hg with rfl
  exact fun h => h

/-- Both directions with a pixel behind empty ones; the corner in front of it stays empty, its own row and column lose. -/
example : ((addCti (exImg 3 2 [[0, 0], [0, 100], [0, 0]]) (some exSafe) 0 .all (some exSafe) .all none).map
    fun x => x.1.rows) = .ok [[0, 0], [0, 6561 / 100], [0, 512487 / 80000]] := by
  decide +kernel

/-- **C85** is *false* with an express value: the rows behind count the charge that one pass gives them more often than the
rows in front count their loss, and 100 electrons become 101. -/
theorem C85_express_false :
    ((addCti (exImg 3 1 [[100], [0], [0]]) (some ⟨exCcd, .standard [1] true true true false,
      [⟨1, fun _ => 10, .instant fun _ _ => 1 / 10⟩], 1, 0⟩) 0 .all none .all none).map fun x => x.1.rows) = .ok [[90], [819 / 100], [148239 / 50000]] ∧
    (100 : ℚ) < 90 + 819 / 100 + 148239 / 50000 := by
  decide +kernel

end Arctic
