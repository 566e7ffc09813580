import Verif.Lemmas.Invert
import Verif.Props.Contract
import Verif.Props.Delay

/-!
# C92 — CTI can be undone: every image is the result of `add_cti` for exactly one image, and `remove_cti` finds it
-/

set_option linter.unusedSectionVars false
set_option linter.unusedVariables false

namespace Arctic

/-! ## Specification -/

/-- Every pixel has at least `low` electrons. -/
def Image.AtLeast (i : Image ℝ) (low : ℝ) : Prop := ∀ r < i.nr, ∀ c < i.nc, low ≤ i.px r c

/-! ## Columns -/

section columns
variable {full power dw : ℝ} {gs : List (List Trap)} {i : Bool} {c : CCD} {o : ℕ} {d : PyDirection}

theorem ExactObjects.rise (h : ExactObjects full power dw gs i c o d) (hpw : 1 ≤ power)
    (hfew : trapCount gs * (power / full) ≤ 1) (n : ℕ) (x : ℕ → ℝ) (hx : ∀ r < n, 0 ≤ x r) :
    ∀ r < n, Ref.readout (wellFill full power) dw (gs.map Ref.ofTraps) (Ref.allPasses n o) x r ≤
      x r + trapCount gs * ((r + o + 1 : ℕ) : ℝ) := by
  have hf := wellFill_lip h.full hpw
  have hF := h.few hf.nonneg_slope hfew
  intro r hr
  have := readout_rise hf n _ hF _ (allPasses_one n o) (allPasses_good n o).nodup x hx r hr
  rwa [passCount_all n o r hr, Ref.ofTraps_totals] at this

theorem ExactObjects.rise_background (h : ExactObjects full power dw gs i c o d) (hpw : power ≤ 1) {b low : ℝ}
    (hb : 0 < b) (hfew : trapCount gs * (wellFill full power b / b) ≤ 1) (n : ℕ)
    (hlow : b ≤ (1 - trapCount gs * (wellFill full power b / b)) ^ (n + o) * low) (x : ℕ → ℝ)
    (hx : ∀ r < n, low ≤ x r) :
    ∀ r < n, Ref.readout (wellFill full power) dw (gs.map Ref.ofTraps) (Ref.allPasses n o) x r ≤
      x r + trapCount gs * ((r + o + 1 : ℕ) : ℝ) := by
  have hcv := wellFill_concave h.full h.power hpw
  have hf := hcv.lift hb
  have hF := h.few hf.nonneg_slope hfew
  have htot := Ref.ofTraps_totals gs
  have same := readout_congr_fill hb.le hf (fun z hz => (liftFill_eq hz).symm) n zero_le_one _ hF
    (by rw [one_mul]; exact hF.few) _ (allPasses_good n o)
  rw [htot, allPasses_length, one_mul] at same
  set κ := trapCount gs * (wellFill full power b / b)
  have hc : 0 ≤ (1 - κ) ^ (n + o) := pow_nonneg (by linarith) _
  have hlow0 : 0 ≤ low := by
    by_contra hneg
    have := mul_nonpos_of_nonneg_of_nonpos hc (not_le.1 hneg).le
    linarith
  have hx0 : ∀ r < n, 0 ≤ x r := fun r hr => hlow0.trans (hx r hr)
  intro r hr
  rw [(same x hx0 fun r hr => hlow.trans (mul_le_mul_of_nonneg_left (hx r hr) hc)).1]
  have := readout_rise hf n _ hF _ (allPasses_one n o) (allPasses_good n o).nodup x hx0 r hr
  rwa [passCount_all n o r hr, Ref.ofTraps_totals] at this

end columns

/-! ## Images -/

theorem mildMap_both {nr nc : ℕ} {lp ls left qp qs : ℝ} {P S : (ℕ → ℝ) → ℕ → ℝ} {up us : ℕ → ℝ} (hP : Mild nr lp ls qp P)
    (hS : Mild nc ls left qs S) (hqs : 0 ≤ qs)
    (uP : ∀ x, (∀ r < nr, lp ≤ x r) → ∀ r < nr, P x r ≤ x r + up r)
    (uS : ∀ x, (∀ r < nc, ls ≤ x r) → ∀ r < nc, S x r ≤ x r + us r) :
    MildMap nr nc lp ((1 + qp) * (1 + qs) - 1) (fun r c => up r + us c)
      fun x r c => S (fun c => P (fun r => x r c) r) c := by
  refine ⟨fun x y hx hy => mild_image hP hS hqs x y hx hy, fun x hx => mild_image_small hP hS hqs x hx,
    fun x hx r hr c hc => ?_⟩
  have h1 := uP (fun r => x r c) (fun r hr => hx r hr c hc) r hr
  have h2 := uS (fun c => P (fun r => x r c) r)
    (fun c hc => hP.floor (fun r => x r c) (fun r hr => hx r hr c hc) r hr) c hc
  linarith

theorem mildMap_parallel {nr nc : ℕ} {lp left qp : ℝ} {P : (ℕ → ℝ) → ℕ → ℝ} {up : ℕ → ℝ} (hP : Mild nr lp left qp P)
    (uP : ∀ x, (∀ r < nr, lp ≤ x r) → ∀ r < nr, P x r ≤ x r + up r) :
    MildMap nr nc lp qp (fun r _ => up r) fun x r c => P (fun r => x r c) r := by
  refine ⟨fun x y hx hy => ?_, fun x hx => ?_, fun x hx r hr c hc => uP (fun r => x r c) (fun r hr => hx r hr c hc) r hr⟩
  · unfold gridDist
    rw [Finset.sum_comm, Finset.sum_comm (s := Finset.range nr), Finset.mul_sum]
    refine Finset.sum_le_sum fun c hc => ?_
    have hc' := Finset.mem_range.1 hc
    exact hP.lip (fun r => x r c) (fun r => y r c) (fun r hr => hx r hr c hc') fun r hr => hy r hr c hc'
  · unfold gridDist gridTotal
    rw [Finset.sum_comm, Finset.sum_comm (s := Finset.range nr), Finset.mul_sum]
    exact Finset.sum_le_sum fun c hc => hP.small (fun r => x r c) fun r hr => hx r hr c (Finset.mem_range.1 hc)

theorem Image.dist_grid {i j : Image ℝ} {nr nc : ℕ} (h1 : i.nr = nr) (h2 : i.nc = nc) : i.dist j = gridDist nr nc i.px j.px := by
  unfold Image.dist gridDist
  rw [h1, h2]

theorem gridDist_congr {nr nc : ℕ} {x x' y y' : ℕ → ℕ → ℝ} (hx : SameGrid nr nc x x') (hy : SameGrid nr nc y y') :
    gridDist nr nc x y = gridDist nr nc x' y' := by
  unfold gridDist
  refine Finset.sum_congr rfl fun r hr => Finset.sum_congr rfl fun c hc => ?_
  rw [hx r (Finset.mem_range.1 hr) c (Finset.mem_range.1 hc), hy r (Finset.mem_range.1 hr) c (Finset.mem_range.1 hc)]

/-- For images of `nr` times `nc` pixels: images with `low` electrons in every pixel stay apart, images with `up` more are
the result for exactly one image, which the iteration finds, and the iteration amplifies differences little. -/
def Inverts {S : Type} (add : Image ℝ → S → Except Err (Image ℝ × S)) (s : S) (nr nc : ℕ) (low q : ℝ)
    (up : ℕ → ℕ → ℝ) : Prop :=
    (∀ x y u v : Image ℝ, x.nr = nr → x.nc = nc → y.nr = nr → y.nc = nc → x.AtLeast low → y.AtLeast low →
      add x s = .ok (u, s) → add y s = .ok (v, s) → (1 - q) * x.dist y ≤ u.dist v) ∧
    (∀ i : Image ℝ, i.nr = nr → i.nc = nc → (∀ r < nr, ∀ c < nc, low + up r c ≤ i.px r c) →
      ∃ truth back, truth.SameShape i ∧ truth.AtLeast low ∧ add truth s = .ok (back, s) ∧ back.Same i ∧
        (∀ other out, other.SameShape i → other.AtLeast low → add other s = .ok (out, s) → out.Same i → other.Same truth) ∧
        ∀ n, ∃ out, removeIter add i n (i, s) = .ok (out, s) ∧ out.SameShape i ∧
          out.dist truth ≤ q ^ (n + 1) / (1 - q) * i.total) ∧
    ∀ i j : Image ℝ, i.nr = nr → i.nc = nc → j.nr = nr → j.nc = nc → (∀ r < nr, ∀ c < nc, low + up r c ≤ i.px r c) →
      (∀ r < nr, ∀ c < nc, low + up r c ≤ j.px r c) → ∀ n, ∃ u v, removeIter add i n (i, s) = .ok (u, s) ∧
        removeIter add j n (j, s) = .ok (v, s) ∧ u.dist v ≤ (∑ k ∈ Finset.range (n + 1), q ^ k) * i.dist j

/-- Images with `low` electrons in every pixel, and images that CTI can have made of them, for a way of adding and
removing CTI that follows a mild map on images of at least `low` electrons. -/
theorem invert_above {S : Type} {nr nc : ℕ} {low q : ℝ} {up : ℕ → ℕ → ℝ} {F : (ℕ → ℕ → ℝ) → ℕ → ℕ → ℝ}
    (add : Image ℝ → S → Except Err (Image ℝ × S)) (s : S)
    (h : MildMap nr nc low q up F) (hq : 0 ≤ q) (hq1 : q < 1) (hup : ∀ r < nr, ∀ c < nc, 0 ≤ up r c)
    (hadd : ∀ x : Image ℝ, x.nr = nr → x.nc = nc → x.AtLeast low → ∃ y, add x s = .ok (y, s) ∧ y.nr = nr ∧ y.nc = nc ∧
      SameGrid nr nc y.px (F x.px)) :
    Inverts add s nr nc low q up := by
  have G : ∀ x y u v : Image ℝ, x.nr = nr → x.nc = nc → y.nr = nr → y.nc = nc → x.AtLeast low → y.AtLeast low →
      add x s = .ok (u, s) → add y s = .ok (v, s) → (1 - q) * x.dist y ≤ u.dist v := by
    intro x y u v x1 x2 y1 y2 xl yl hx hy
    obtain ⟨u', a1, a2, a3, a4⟩ := hadd x x1 x2 xl
    obtain ⟨v', b1, b2, b3, b4⟩ := hadd y y1 y2 yl
    rw [hx] at a1
    rw [hy] at b1
    injection a1 with a1
    injection a1 with a1 _
    injection b1 with b1
    injection b1 with b1 _
    subst a1 b1
    rw [Image.dist_grid x1 x2, Image.dist_grid a2 a3, gridDist_congr a4 b4]
    unfold Image.AtLeast at xl yl
    rw [x1, x2] at xl
    rw [y1, y2] at yl
    exact h.apart xl yl
  refine ⟨G, fun i i1 i2 hi => ?_, fun i j i1 i2 j1 j2 hi hj n => ?_⟩
  · obtain ⟨t, t1, t2, t3⟩ := removeSeq_limit h hq hq1 hup hi
    obtain ⟨back, b1, b2, b3, b4⟩ := hadd ⟨nr, nc, t⟩ rfl rfl t1
    refine ⟨⟨nr, nc, t⟩, back, ⟨i1.symm, i2.symm⟩, t1, b1, ⟨b2.trans i1.symm, b3.trans i2.symm, fun r hr c hc => ?_⟩,
      fun other out o1 o2 o3 o4 => ?_, fun n => ?_⟩
    · rw [b2] at hr
      rw [b3] at hc
      rw [b4 r hr c hc]
      exact t2 r hr c hc
    · have key := G other ⟨nr, nc, t⟩ out back (o1.1.trans i1) (o1.2.trans i2) rfl rfl o2 t1 o3 b1
      have q2 : out.nr = nr := o4.1.trans i1
      have q3 : out.nc = nc := o4.2.trans i2
      have z : out.dist back = 0 := by
        rw [Image.dist_grid q2 q3]
        refine gridDist_self_of fun r hr c hc => ?_
        rw [o4.3 r (by rw [q2]; exact hr) c (by rw [q3]; exact hc), b4 r hr c hc]
        exact (t2 r hr c hc).symm
      rw [z, Image.dist_grid (o1.1.trans i1) (o1.2.trans i2)] at key
      have hd : gridDist nr nc other.px t ≤ 0 := by
        by_contra hneg
        have := mul_pos (sub_pos.2 hq1) (not_le.1 hneg)
        linarith
      refine ⟨o1.1.trans i1, o1.2.trans i2, fun r hr c hc => sameGrid_of_dist hd r ?_ c ?_⟩
      · rw [o1.1, i1] at hr; exact hr
      · rw [o1.2, i2] at hc; exact hc
    · obtain ⟨out, o1, o2, o3⟩ := removeIter_above add s i (by rw [i1, i2]; exact h) (by rw [i1, i2]; exact hup)
        (by rw [i1, i2]; exact hi) (fun x hx hl => by
          obtain ⟨y, y1, y2, y3, y4⟩ := hadd x (hx.1.trans i1) (hx.2.trans i2)
            (by unfold Image.AtLeast; rw [hx.1, hx.2]; exact hl)
          exact ⟨y, y1, ⟨y2.trans i1.symm, y3.trans i2.symm⟩, by rw [i1, i2]; exact y4⟩) n
      refine ⟨out, o1, o2, ?_⟩
      rw [i1, i2] at o3
      rw [Image.dist_grid (o2.1.trans i1) (o2.2.trans i2), gridDist_congr o3 (fun _ _ _ _ => rfl)]
      refine (t3 n).trans (le_of_eq ?_)
      unfold gridTotal Image.total
      rw [i1, i2]
  · have go : ∀ i : Image ℝ, i.nr = nr → i.nc = nc → (∀ r < nr, ∀ c < nc, low + up r c ≤ i.px r c) →
        ∃ out, removeIter add i n (i, s) = .ok (out, s) ∧ out.nr = nr ∧ out.nc = nc ∧
          SameGrid nr nc out.px (removeSeq F i.px n) := by
      intro i i1 i2 hi
      obtain ⟨out, o1, o2, o3⟩ := removeIter_above add s i (by rw [i1, i2]; exact h) (by rw [i1, i2]; exact hup)
        (by rw [i1, i2]; exact hi) (fun x hx hl => by
          obtain ⟨y, y1, y2, y3, y4⟩ := hadd x (hx.1.trans i1) (hx.2.trans i2)
            (by unfold Image.AtLeast; rw [hx.1, hx.2]; exact hl)
          exact ⟨y, y1, ⟨y2.trans i1.symm, y3.trans i2.symm⟩, by rw [i1, i2]; exact y4⟩) n
      rw [i1, i2] at o3
      exact ⟨out, o1, o2.1.trans i1, o2.2.trans i2, o3⟩
    obtain ⟨u, u1, u2, u3, u4⟩ := go i i1 i2 hi
    obtain ⟨v, v1, v2, v3, v4⟩ := go j j1 j2 hj
    refine ⟨u, v, u1, v1, ?_⟩
    rw [Image.dist_grid u2 u3, Image.dist_grid i1 i2, gridDist_congr u4 v4]
    exact removeSeq_noise h hq hup hi hj n

theorem invert_general {S : Type} {nr nc : ℕ} {low q : ℝ} {up : ℕ → ℕ → ℝ} {F : (ℕ → ℕ → ℝ) → ℕ → ℕ → ℝ}
    (add : Image ℝ → S → Except Err (Image ℝ × S)) (s : S)
    (h : MildMap nr nc low q up F) (hq : 0 ≤ q) (hq1 : q < 1) (hup : ∀ r < nr, ∀ c < nc, 0 ≤ up r c)
    (hadd : ∀ x : Image ℝ, x.nr = nr → x.nc = nc → ∃ y, add x s = .ok (y, s) ∧ y.nr = nr ∧ y.nc = nc ∧
      SameGrid nr nc y.px (F x.px)) :
    Inverts add s nr nc low q up :=
  invert_above add s h hq hq1 hup fun x h1 h2 _ => hadd x h1 h2

section main
variable {fp fs pp ps dp ds : ℝ} {gp gs : List (List Trap)} {ip is : Bool} {cp cs : CCD} {op os : ℕ}
  {par ser : PyDirection}

/-- Both directions as a mild map. -/
theorem both_mild (hp : ExactObjects fp pp dp gp ip cp op par) (hs : ExactObjects fs ps ds gs is cs os ser)
    (hpp : 1 ≤ pp) (hps : 1 ≤ ps) (nr nc : ℕ) (lp ls q : ℝ)
    (hlp : lp = 2 * (trapCount gp * (pp / fp))) (hls : ls = 2 * (trapCount gs * (ps / fs))) (hlp1 : lp < 1) (hls1 : ls < 1)
    (hq : q = (1 / (1 - lp)) ^ (nr + op) * (1 / (1 - ls)) ^ (nc + os) - 1) :
    0 ≤ q ∧ MildMap nr nc 0 q
      (fun r c => trapCount gp * ((r + op + 1 : ℕ) : ℝ) + trapCount gs * ((c + os + 1 : ℕ) : ℝ)) fun x r c =>
        Ref.readout (wellFill fs ps) ds (gs.map Ref.ofTraps) (Ref.allPasses nc os)
          (fun c => Ref.readout (wellFill fp pp) dp (gp.map Ref.ofTraps) (Ref.allPasses nr op) (fun r => x r c) r) c := by
  have hlp0 : 0 ≤ trapCount gp * (pp / fp) :=
    mul_nonneg hp.count_nonneg (div_pos (by linarith : 0 < pp) hp.full).le
  have hls0 : 0 ≤ trapCount gs * (ps / fs) :=
    mul_nonneg hs.count_nonneg (div_pos (by linarith : 0 < ps) hs.full).le
  have hP := hp.mild hpp (by rw [← hlp]; exact hlp1) nr
  have hS := hs.mild hps (by rw [← hls]; exact hls1) nc
  rw [← hlp] at hP
  rw [← hls] at hS
  have hqP := lossSlope_nonneg (l := lp) (by linarith) hlp1 (nr + op)
  have hqS := lossSlope_nonneg (l := ls) (by linarith) hls1 (nc + os)
  have hqe : (1 + lossSlope lp (nr + op)) * (1 + lossSlope ls (nc + os)) - 1 = q := by
    rw [hq]; unfold lossSlope; ring
  refine ⟨by rw [← hqe]; nlinarith, ?_⟩
  have := mildMap_both hP hS hqS (up := fun r => trapCount gp * ((r + op + 1 : ℕ) : ℝ))
    (us := fun c => trapCount gs * ((c + os + 1 : ℕ) : ℝ))
    (fun x hx r hr => hp.rise hpp (by linarith) nr x hx r hr) (fun x hx r hr => hs.rise hps (by linarith) nc x hx r hr)
  rw [hqe] at this
  exact this

theorem both_run (hp : ExactObjects fp pp dp gp ip cp op par) (hs : ExactObjects fs ps ds gs is cs os ser) {nr nc : ℕ}
    (hnr : 0 < nr) (hnc : 0 < nc) (x : Image ℝ) (h1 : x.nr = nr) (h2 : x.nc = nc) :
    ∃ y, addCtiPy x par .all ser .all none =
        .ok (y, .standard [dp] true true true ip, .standard [ds] true true true is) ∧ y.nr = nr ∧ y.nc = nc ∧
      SameGrid nr nc y.px fun r c => Ref.readout (wellFill fs ps) ds (gs.map Ref.ofTraps) (Ref.allPasses nc os)
          (fun c => Ref.readout (wellFill fp pp) dp (gp.map Ref.ofTraps) (Ref.allPasses nr op) (fun r => x.px r c) r) c := by
  obtain ⟨y, g1, g2, g3, g4⟩ := C55_add_cti x (by rw [h1]; exact hnr) (by rw [h2]; exact hnc) fp fs pp ps dp ds gp
    gs ip is cp cs op os par ser hp hs
  rw [h1, h2] at g4
  exact ⟨y, g1, g2.trans h1, g3.trans h2, g4⟩

/-- What `remove_cti` repeats: `add_cti` with the readout objects of the call before. -/
noncomputable def addAgain (par ser : PyDirection) (cur : Image ℝ) (s : Option (Roe ℝ) × Option (Roe ℝ)) :
    Except Err (Image ℝ × Option (Roe ℝ) × Option (Roe ℝ)) := do
  let (out, rp, rs) ← addCtiPy cur { par with roe := s.1 } .all { ser with roe := s.2 } .all none
  .ok (out, s.1.map fun _ => rp, s.2.map fun _ => rs)

theorem removeCtiPy_again (img : Image ℝ) (n : ℕ) (par ser : PyDirection) :
    removeCtiPy img n par .all ser .all none = removeIter (addAgain par ser) img n (img, par.roe, ser.roe) := rfl

theorem addAgain_both (hp : ExactObjects fp pp dp gp ip cp op par) (hs : ExactObjects fs ps ds gs is cs os ser)
    (x y : Image ℝ) (h : addCtiPy x par .all ser .all none =
        .ok (y, .standard [dp] true true true ip, .standard [ds] true true true is)) :
    addAgain par ser x (par.roe, ser.roe) = .ok (y, par.roe, ser.roe) := by
  have hroe : par.roe = some (.standard [dp] true true true ip) ∧ ser.roe = some (.standard [ds] true true true is) := by
    rw [hp.eq, hs.eq]; exact ⟨rfl, rfl⟩
  unfold addAgain
  simp only [bind, Except.bind]
  rw [h]
  simp only [hroe.1, hroe.2, Option.map_some]

theorem addAgain_parallel (hp : ExactObjects fp pp dp gp ip cp op par) (x y : Image ℝ)
    (h : addCtiPy x par .all .absent .all none = .ok (y, .standard [dp] true true true ip, Roe.default)) :
    addAgain par .absent x (par.roe, none) = .ok (y, par.roe, none) := by
  have hroe : par.roe = some (.standard [dp] true true true ip) := by rw [hp.eq]
  have e2 : addCtiPy x { par with roe := par.roe } .all { PyDirection.absent with roe := none } .all none =
      .ok (y, .standard [dp] true true true ip, Roe.default) := h
  unfold addAgain
  simp only [bind, Except.bind]
  rw [e2]
  simp only [hroe, Option.map_some, Option.map_none]

/-- The three statements for both directions. -/
theorem invert_both (hp : ExactObjects fp pp dp gp ip cp op par) (hs : ExactObjects fs ps ds gs is cs os ser)
    (hpp : 1 ≤ pp) (hps : 1 ≤ ps) {nr nc : ℕ} (hnr : 0 < nr) (hnc : 0 < nc) (lp ls q : ℝ)
    (hlp : lp = 2 * (trapCount gp * (pp / fp))) (hls : ls = 2 * (trapCount gs * (ps / fs))) (hlp1 : lp < 1) (hls1 : ls < 1)
    (hq : q = (1 / (1 - lp)) ^ (nr + op) * (1 / (1 - ls)) ^ (nc + os) - 1) (hq1 : q < 1) :
    Inverts (addAgain par ser) (par.roe, ser.roe) nr nc 0 q
      fun r c => trapCount gp * ((r + op + 1 : ℕ) : ℝ) + trapCount gs * ((c + os + 1 : ℕ) : ℝ) :=
  invert_general (addAgain par ser) (par.roe, ser.roe) (both_mild hp hs hpp hps nr nc lp ls q hlp hls hlp1 hls1 hq).2
    (both_mild hp hs hpp hps nr nc lp ls q hlp hls hlp1 hls1 hq).1 hq1
    (fun r _ c _ => add_nonneg (mul_nonneg hp.count_nonneg (Nat.cast_nonneg _))
      (mul_nonneg hs.count_nonneg (Nat.cast_nonneg _))) (fun x h1 h2 => by
      obtain ⟨y, y1, y2, y3, y4⟩ := both_run hp hs hnr hnc x h1 h2
      exact ⟨y, addAgain_both hp hs x y y1, y2, y3, y4⟩)

/-- **C92**, both directions, `well_fill_power ≥ 1`. Let `λ` be twice the number of traps per pixel times
`power / full_well_depth`, and `q = (1-λ_p)^-(rows+offset_p) · (1-λ_s)^-(columns+offset_s) - 1 < 1`. Let every pixel of an
image hold at least one electron per trap and transfer. Then there is an image without negative pixels from which
`add_cti` makes this image, it is the only one, and the image that `remove_cti` returns after `n` iterations differs from
it by at most `q^(n+1) / (1-q)` times the total charge, summed over all pixels. -/
theorem C92_inverse (hp : ExactObjects fp pp dp gp ip cp op par) (hs : ExactObjects fs ps ds gs is cs os ser)
    (hpp : 1 ≤ pp) (hps : 1 ≤ ps) (img : Image ℝ) (hnr : 0 < img.nr) (hnc : 0 < img.nc) (lp ls q : ℝ)
    (hlp : lp = 2 * (trapCount gp * (pp / fp))) (hls : ls = 2 * (trapCount gs * (ps / fs))) (hlp1 : lp < 1) (hls1 : ls < 1)
    (hq : q = (1 / (1 - lp)) ^ (img.nr + op) * (1 / (1 - ls)) ^ (img.nc + os) - 1) (hq1 : q < 1)
    (himg : ∀ r < img.nr, ∀ c < img.nc,
      trapCount gp * ((r + op + 1 : ℕ) : ℝ) + trapCount gs * ((c + os + 1 : ℕ) : ℝ) ≤ img.px r c) :
    ∃ truth back, truth.SameShape img ∧ truth.AtLeast 0 ∧ addCtiPy truth par .all ser .all none =
        .ok (back, .standard [dp] true true true ip, .standard [ds] true true true is) ∧ back.Same img ∧
      (∀ other out roes, other.SameShape img → other.AtLeast 0 → addCtiPy other par .all ser .all none = .ok (out, roes) →
        out.Same img → other.Same truth) ∧
      ∀ n, ∃ out, removeCtiPy img n par .all ser .all none = .ok (out, par.roe, ser.roe) ∧ out.SameShape img ∧
        out.dist truth ≤ q ^ (n + 1) / (1 - q) * img.total := by
  obtain ⟨-, G, -⟩ := invert_both hp hs hpp hps hnr hnc lp ls q hlp hls hlp1 hls1 hq hq1
  obtain ⟨truth, back, t1, t2, t3, t4, t5, t6⟩ := G img rfl rfl (fun r hr c hc => by rw [zero_add]; exact himg r hr c hc)
  obtain ⟨back', b1, b2, b3, -⟩ := both_run hp hs hnr hnc truth t1.1 t1.2
  obtain rfl : back' = back := by
    rw [addAgain_both hp hs truth back' b1] at t3
    injection t3 with t3
    injection t3
  refine ⟨truth, back', t1, t2, b1, t4, fun other out roes o1 o2 o3 o4 => ?_, t6⟩
  obtain ⟨out', c1, -⟩ := both_run hp hs hnr hnc other o1.1 o1.2
  rw [o3] at c1
  injection c1 with c1
  injection c1 with c1 c5
  rw [c5] at o3
  exact t5 other out o1 o2 (addAgain_both hp hs other out o3) o4

/-- **C92**, both directions, noise: different images without negative pixels stay different by at least `1 - q` times
their distance when CTI is added, and `remove_cti` increases the distance between two images at most
`1 + q + … + q^n ≤ 1 / (1 - q)` times. -/
theorem C92_noise (hp : ExactObjects fp pp dp gp ip cp op par) (hs : ExactObjects fs ps ds gs is cs os ser)
    (hpp : 1 ≤ pp) (hps : 1 ≤ ps) (img img' : Image ℝ) (hsh : img'.SameShape img) (hnr : 0 < img.nr) (hnc : 0 < img.nc)
    (lp ls q : ℝ)
    (hlp : lp = 2 * (trapCount gp * (pp / fp))) (hls : ls = 2 * (trapCount gs * (ps / fs))) (hlp1 : lp < 1) (hls1 : ls < 1)
    (hq : q = (1 / (1 - lp)) ^ (img.nr + op) * (1 / (1 - ls)) ^ (img.nc + os) - 1) (hq1 : q < 1) :
    (img.AtLeast 0 → img'.AtLeast 0 → ∃ out out' roes, addCtiPy img par .all ser .all none = .ok (out, roes) ∧
      addCtiPy img' par .all ser .all none = .ok (out', roes) ∧ (1 - q) * img'.dist img ≤ out'.dist out) ∧
    ((∀ r < img.nr, ∀ c < img.nc,
        trapCount gp * ((r + op + 1 : ℕ) : ℝ) + trapCount gs * ((c + os + 1 : ℕ) : ℝ) ≤ min (img.px r c) (img'.px r c)) →
      ∀ n, ∃ out out', removeCtiPy img n par .all ser .all none = .ok (out, par.roe, ser.roe) ∧
        removeCtiPy img' n par .all ser .all none = .ok (out', par.roe, ser.roe) ∧
        out'.dist out ≤ (∑ k ∈ Finset.range (n + 1), q ^ k) * img'.dist img) := by
  obtain ⟨G1, -, G3⟩ := invert_both hp hs hpp hps hnr hnc lp ls q hlp hls hlp1 hls1 hq hq1
  refine ⟨fun h h' => ?_, fun h n => ?_⟩
  · obtain ⟨out, b1, -⟩ := both_run hp hs hnr hnc img rfl rfl
    obtain ⟨out', c1, -⟩ := both_run hp hs hnr hnc img' hsh.1 hsh.2
    exact ⟨out, out', _, b1, c1, G1 img' img out' out hsh.1 hsh.2 rfl rfl h' h (addAgain_both hp hs _ _ c1)
      (addAgain_both hp hs _ _ b1)⟩
  · obtain ⟨u, v, h1, h2, h3⟩ := G3 img' img hsh.1 hsh.2 rfl rfl
      (fun r hr c hc => by rw [zero_add]; exact (h r hr c hc).trans (min_le_right _ _))
      (fun r hr c hc => by rw [zero_add]; exact (h r hr c hc).trans (min_le_left _ _)) n
    exact ⟨v, u, h2, h1, h3⟩

/-- The three statements for parallel clocking. -/
theorem invert_parallel (hp : ExactObjects fp pp dp gp ip cp op par) (hpp : pp ≤ 1) {nr nc : ℕ} (hnr : 0 < nr) (b low k q : ℝ)
    (hb : 0 < b) (hk : trapCount gp * (wellFill fp pp b / b) ≤ k) (hk1 : 2 * k < 1)
    (hlow : b ≤ (1 - k) ^ (nr + op) * low) (hq : q = (1 / (1 - 2 * k)) ^ (nr + op) - 1) (hq1 : q < 1) :
    Inverts (addAgain par .absent) (par.roe, none) nr nc low q fun r _ => trapCount gp * ((r + op + 1 : ℕ) : ℝ) :=
  have hk0 : 0 ≤ trapCount gp * (wellFill fp pp b / b) :=
    mul_nonneg hp.count_nonneg (div_nonneg ((wellFill_exact hp.full hp.power).1.nonneg b) hb.le)
  have hlow0 : 0 ≤ low := by
    by_contra hneg
    have := mul_nonpos_of_nonneg_of_nonpos (pow_nonneg (by linarith : 0 ≤ 1 - k) (nr + op)) (not_le.1 hneg).le
    linarith
  have hlow' : b ≤ (1 - trapCount gp * (wellFill fp pp b / b)) ^ (nr + op) * low :=
    hlow.trans (mul_le_mul_of_nonneg_right (pow_le_pow_left₀ (by linarith) (by linarith) _) hlow0)
  have hqq : lossSlope (2 * (trapCount gp * (wellFill fp pp b / b))) (nr + op) ≤ q := by
    rw [hq]
    unfold lossSlope
    have : 1 / (1 - 2 * (trapCount gp * (wellFill fp pp b / b))) ≤ 1 / (1 - 2 * k) :=
      one_div_le_one_div_of_le (by linarith) (by linarith)
    have := pow_le_pow_left₀ (one_div_nonneg.2 (by linarith)) this (nr + op)
    linarith
  have hq0 : 0 ≤ q := (lossSlope_nonneg (by linarith) (by linarith) _).trans hqq
  have hP := hp.mild_background hpp hb (by linarith) nr hlow'
  have hP' : Mild nr low ((1 - trapCount gp * (wellFill fp pp b / b)) ^ (nr + op) * low) q
      (Ref.readout (wellFill fp pp) dp (gp.map Ref.ofTraps) (Ref.allPasses nr op)) :=
    ⟨hP.floor, fun x hx => (hP.small x hx).trans (mul_le_mul_of_nonneg_right hqq
      (Finset.sum_nonneg fun r hr => hlow0.trans (hx r (Finset.mem_range.1 hr)))),
      fun x y hx hy => (hP.lip x y hx hy).trans (mul_le_mul_of_nonneg_right hqq
        (Finset.sum_nonneg fun _ _ => abs_nonneg _))⟩
  invert_general (addAgain par .absent) (par.roe, none)
    (mildMap_parallel (nc := nc) hP' (up := fun r => trapCount gp * ((r + op + 1 : ℕ) : ℝ))
      (fun x hx r hr => hp.rise_background hpp hb (by linarith) nr hlow' x hx r hr)) hq0 hq1
    (fun r _ c _ => mul_nonneg hp.count_nonneg (Nat.cast_nonneg _)) (fun x h1 h2 => by
      obtain ⟨y, g1, g2, g3, g4⟩ := C55_parallel x (by rw [h1]; exact hnr) fp pp dp gp ip cp op par hp
      rw [h1, h2] at g4
      exact ⟨y, addAgain_parallel hp x y g1, g2.trans h1, g3.trans h2, g4⟩)

/-- **C92** for parallel clocking with `well_fill_power ≤ 1` and a background: `b` is a number of electrons that every
pixel keeps during the readout, `k` is at least the number of traps per pixel times the volume per electron of a cloud of
`b` electrons, `low` electrons per pixel before readout guarantee `b` throughout, `q = (1-2k)^-(rows+offset) - 1 < 1`. If
every pixel of an image holds `low` electrons and another one per trap and transfer, then it comes from exactly one image
with `low` electrons in every pixel, and `remove_cti` converges to it. -/
theorem C92_background (hp : ExactObjects fp pp dp gp ip cp op par) (hpp : pp ≤ 1) (img : Image ℝ)
    (hnr : 0 < img.nr) (b low k q : ℝ) (hb : 0 < b) (hk : trapCount gp * (wellFill fp pp b / b) ≤ k) (hk1 : 2 * k < 1)
    (hlow : b ≤ (1 - k) ^ (img.nr + op) * low) (hq : q = (1 / (1 - 2 * k)) ^ (img.nr + op) - 1) (hq1 : q < 1)
    (himg : ∀ r < img.nr, ∀ c < img.nc, low + trapCount gp * ((r + op + 1 : ℕ) : ℝ) ≤ img.px r c) :
    ∃ truth back, truth.SameShape img ∧ truth.AtLeast low ∧ addCtiPy truth par .all .absent .all none =
        .ok (back, .standard [dp] true true true ip, Roe.default) ∧ back.Same img ∧
      (∀ other out roes, other.SameShape img → other.AtLeast low →
        addCtiPy other par .all .absent .all none = .ok (out, roes) → out.Same img → other.Same truth) ∧
      ∀ n, ∃ out, removeCtiPy img n par .all .absent .all none = .ok (out, par.roe, none) ∧ out.SameShape img ∧
        out.dist truth ≤ q ^ (n + 1) / (1 - q) * img.total := by
  obtain ⟨-, G, -⟩ := invert_parallel (nc := img.nc) hp hpp hnr b low k q hb hk hk1 hlow hq hq1
  obtain ⟨truth, back, t1, t2, t3, t4, t5, t6⟩ := G img rfl rfl himg
  have run : ∀ x : Image ℝ, x.SameShape img → ∃ y, addCtiPy x par .all .absent .all none =
      .ok (y, .standard [dp] true true true ip, Roe.default) := fun x hx => by
    obtain ⟨y, g1, -⟩ := C55_parallel x (by rw [hx.1]; exact hnr) fp pp dp gp ip cp op par hp
    exact ⟨y, g1⟩
  obtain ⟨back', b1⟩ := run truth t1
  obtain rfl : back' = back := by
    rw [addAgain_parallel hp truth back' b1] at t3
    injection t3 with t3
    injection t3
  refine ⟨truth, back', t1, t2, b1, t4, fun other out roes o1 o2 o3 o4 => ?_, t6⟩
  obtain ⟨out', c1⟩ := run other o1
  rw [o3] at c1
  injection c1 with c1
  injection c1 with c1 c5
  rw [c5] at o3
  exact t5 other out o1 o2 (addAgain_parallel hp other out o3) o4

/-- **C92** for parallel clocking with a background: noise. -/
theorem C92_background_noise (hp : ExactObjects fp pp dp gp ip cp op par) (hpp : pp ≤ 1) (img img' : Image ℝ)
    (hsh : img'.SameShape img) (hnr : 0 < img.nr) (b low k q : ℝ) (hb : 0 < b)
    (hk : trapCount gp * (wellFill fp pp b / b) ≤ k) (hk1 : 2 * k < 1)
    (hlow : b ≤ (1 - k) ^ (img.nr + op) * low) (hq : q = (1 / (1 - 2 * k)) ^ (img.nr + op) - 1) (hq1 : q < 1) :
    (img.AtLeast low → img'.AtLeast low → ∃ out out' roes, addCtiPy img par .all .absent .all none = .ok (out, roes) ∧
      addCtiPy img' par .all .absent .all none = .ok (out', roes) ∧ (1 - q) * img'.dist img ≤ out'.dist out) ∧
    ((∀ r < img.nr, ∀ c < img.nc, low + trapCount gp * ((r + op + 1 : ℕ) : ℝ) ≤ min (img.px r c) (img'.px r c)) →
      ∀ n, ∃ out out', removeCtiPy img n par .all .absent .all none = .ok (out, par.roe, none) ∧
        removeCtiPy img' n par .all .absent .all none = .ok (out', par.roe, none) ∧
        out'.dist out ≤ (∑ k ∈ Finset.range (n + 1), q ^ k) * img'.dist img) := by
  obtain ⟨G1, -, G3⟩ := invert_parallel (nc := img.nc) hp hpp hnr b low k q hb hk hk1 hlow hq hq1
  refine ⟨fun h h' => ?_, fun h n => ?_⟩
  · obtain ⟨out, b1, -⟩ := C55_parallel img hnr fp pp dp gp ip cp op par hp
    obtain ⟨out', c1, -⟩ := C55_parallel img' (by rw [hsh.1]; exact hnr) fp pp dp gp ip cp op par hp
    exact ⟨out, out', _, b1, c1, G1 img' img out' out hsh.1 hsh.2 rfl rfl h' h (addAgain_parallel hp _ _ c1)
      (addAgain_parallel hp _ _ b1)⟩
  · obtain ⟨u, v, h1, h2, h3⟩ := G3 img' img hsh.1 hsh.2 rfl rfl
      (fun r hr c hc => (h r hr c hc).trans (min_le_right _ _))
      (fun r hr c hc => (h r hr c hc).trans (min_le_left _ _)) n
    exact ⟨v, u, h2, h1, h3⟩

end main

/-- **C92** for the HST preset: parallel clocking of an image with a background. -/
theorem C92_hst (date : ℝ) (hd : 2452334.5 ≤ date) (img : Image ℝ) (hnr : 0 < img.nr) (o : ℕ) (b low k q : ℝ)
    (hb : 0 < b) (hk : hstTotalDensity date * (wellFill 84700 0.478 b / b) ≤ k) (hk1 : 2 * k < 1)
    (hlow : b ≤ (1 - k) ^ (img.nr + o) * low) (hq : q = (1 / (1 - 2 * k)) ^ (img.nr + o) - 1) (hq1 : q < 1)
    (himg : ∀ r < img.nr, ∀ c < img.nc, low + hstTotalDensity date * ((r + o + 1 : ℕ) : ℝ) ≤ img.px r c) :
    ∃ traps ccd roe truth back, modelForHstAcs date = .ok (traps, ccd, roe) ∧ truth.SameShape img ∧ truth.AtLeast low ∧
      addCtiPy truth ⟨some ccd, some roe, some (.list (traps.map .trap)), 0, o⟩ .all .absent .all none =
        .ok (back, roe, Roe.default) ∧ back.Same img ∧
      (∀ other out roes, other.SameShape img → other.AtLeast low →
        addCtiPy other ⟨some ccd, some roe, some (.list (traps.map .trap)), 0, o⟩ .all .absent .all none = .ok (out, roes) →
        out.Same img → other.Same truth) ∧
      ∀ n, ∃ out, removeCtiPy img n ⟨some ccd, some roe, some (.list (traps.map .trap)), 0, o⟩ .all .absent .all none =
          .ok (out, some roe, none) ∧ out.SameShape img ∧ out.dist truth ≤ q ^ (n + 1) / (1 - q) * img.total := by
  obtain ⟨traps, ccd, h, hne, hx⟩ := hst_exact date hd o
  have hcount : trapCount [traps] = hstTotalDensity date := hst_count h
  obtain ⟨truth, back, t1, t2, t3, t4, t5, t6⟩ := C92_background hx (by norm_num) img hnr b low k q hb
    (by rw [hcount]; exact hk) hk1 hlow hq hq1 (by rw [hcount]; exact himg)
  have e := fun x => addCtiPy_trap_list x ⟨some ccd, some (.standard [1] true true true false), none, 0, o⟩ traps hne .all
      .absent .all none
  refine ⟨traps, ccd, _, truth, back, h, t1, t2, (e truth).trans t3, t4, fun other out roes o1 o2 o3 o4 => ?_, fun n => ?_⟩
  · exact t5 other out roes o1 o2 ((e other).symm.trans o3) o4
  · obtain ⟨out, o1, o2, o3⟩ := t6 n
    refine ⟨out, ?_, o2, o3⟩
    exact (removeCtiPy_trap_list img n ⟨some ccd, some (.standard [1] true true true false), none, 0, o⟩ traps hne .all
      .absent .all none).trans o1

/-! ### where it fails -/

/-- Ten traps per pixel, full well of 100 electrons. -/
def exTen : Direction ℚ := ⟨⟨[1], fun _ => fillSquare⟩, exRoe, [⟨1, fun _ => 10, .instant fun _ _ => 1 / 2⟩], 0, 0⟩

/-- **C92** needs the condition on the pixels: behind a bright pixel there must be a trail. `remove_cti` makes the empty
pixel behind a pixel of 100 electrons negative. -/
theorem C92_dark_false :
    (removeCti (exImg 2 1 [[100], [0]]) 1 (some exTen) 0 .all none .all none).map
      (fun x => (x.1.px 0 0, x.1.px 1 0)) = .ok (110, -127201599 / 12800000) ∧
    (-127201599 / 12800000 : ℚ) < 0 := by
  refine ⟨?_, by norm_num⟩
  decide +kernel

/-! ### examples -/

/-- Ten rows of 1000 electrons a day after the preset's first date. -/
example : ∃ traps ccd roe truth back, modelForHstAcs 2452335.5 = .ok (traps, ccd, roe) ∧ truth.AtLeast 101 ∧
    addCtiPy truth ⟨some ccd, some roe, some (.list (traps.map .trap)), 0, 0⟩ .all .absent .all none =
      .ok (back, roe, Roe.default) ∧ back.Same ⟨10, 1, fun _ _ => 1000⟩ := by
  have hdens : hstTotalDensity 2452335.5 = 0.01819988 := by unfold hstTotalDensity; norm_num
  have hw := (wellFill_exact (full := 84700) (power := 0.478) (by norm_num) (by norm_num)).1.le_one 100
  obtain ⟨traps, ccd, roe, truth, back, h1, -, h3, h4, h5, -⟩ := C92_hst 2452335.5 (by norm_num)
    (⟨10, 1, fun _ _ => 1000⟩ : Image ℝ)
    (by norm_num) 0 100 101 0.0002 _ (by norm_num) (by rw [hdens]; norm_num; linarith) (by norm_num) (by norm_num) rfl
    (by norm_num) (fun r hr c _ => by
      rw [hdens]
      have : ((r + 0 + 1 : ℕ) : ℝ) ≤ 10 := by
        have : r + 0 + 1 ≤ 10 := by simp only at hr; omega
        exact_mod_cast this
      simp only
      linarith)
  exact ⟨traps, ccd, roe, truth, back, h1, h3, h4, h5⟩

/-- Two directions, a linear well of 1000 electrons with half a trap per pixel: noise is amplified by less than a
percent. -/
example (c : CCD) (d : PyDirection) (h : ExactObjects 1000 1 1 [[.instant (1 / 2) 5 false]] false c 0 d) (n : ℕ) :
    ∃ out out', removeCtiPy ⟨3, 2, fun _ _ => 100⟩ n d .all d .all none = .ok (out, d.roe, d.roe) ∧
      removeCtiPy ⟨3, 2, fun r c => 100 + r + c⟩ n d .all d .all none = .ok (out', d.roe, d.roe) ∧
      out'.dist out ≤ 1.01 * Image.dist ⟨3, 2, fun r c => 100 + r + c⟩ ⟨3, 2, fun _ _ => 100⟩ := by
  have hc : trapCount [[.instant (1 / 2) 5 false]] = 1 / 2 := by simp [trapCount, Trap.density]
  obtain ⟨q, hq⟩ : ∃ q : ℝ, q = (1 / (1 - 1 / 1000)) ^ (3 + 0) * (1 / (1 - 1 / 1000)) ^ (2 + 0) - 1 := ⟨_, rfl⟩
  have hq0 : 0 ≤ q := by rw [hq]; norm_num
  have hq1 : q ≤ 0.0051 := by rw [hq]; norm_num
  obtain ⟨out, out', h1, h2, h3⟩ := (C92_noise h h le_rfl le_rfl (⟨3, 2, fun _ _ => 100⟩ : Image ℝ)
    (⟨3, 2, fun r c => 100 + r + c⟩ : Image ℝ) ⟨rfl, rfl⟩ (by norm_num) (by norm_num) (1 / 1000) (1 / 1000) q
    (by rw [hc]; norm_num) (by rw [hc]; norm_num) (by norm_num) (by norm_num) hq (by linarith)).2 (fun r hr c hc' => by
      rw [hc]
      have e1 : ((r + 0 + 1 : ℕ) : ℝ) ≤ 3 := by
        have : r + 0 + 1 ≤ 3 := by simp only at hr; omega
        exact_mod_cast this
      have e2 : ((c + 0 + 1 : ℕ) : ℝ) ≤ 2 := by
        have : c + 0 + 1 ≤ 2 := by simp only at hc'; omega
        exact_mod_cast this
      have e3 : (0 : ℝ) ≤ (r : ℝ) := Nat.cast_nonneg r
      have e4 : (0 : ℝ) ≤ (c : ℝ) := Nat.cast_nonneg c
      refine le_min ?_ ?_ <;> simp only <;> linarith) n
  refine ⟨out, out', h1, h2, h3.trans (mul_le_mul_of_nonneg_right ?_ (Image.dist_nonneg _ _))⟩
  have e := geom_sum_mul_neg q (n + 1)
  have p := pow_nonneg hq0 (n + 1)
  have s0 : 0 ≤ ∑ k ∈ Finset.range (n + 1), q ^ k := Finset.sum_nonneg fun k _ => pow_nonneg hq0 k
  nlinarith

end Arctic
