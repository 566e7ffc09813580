import Verif.Lemmas.Capacity
import Verif.Lemmas.Prefix
import Verif.Props.Causality
import Verif.Props.Total
import Verif.Lemmas.Same

/-!
# C66 — a corner of the image can be processed alone
-/

set_option linter.unusedSectionVars false
set_option linter.unusedVariables false

namespace Arctic

variable {K : Type} [Field K] [LinearOrder K] [IsStrictOrderedRing K]

/-- The `n × m` pixels next to the readout corner: `image[:n, :m]`. -/
def Image.corner (img : Image K) (n m : ℕ) : Image K := ⟨n, m, img.px⟩

/-- One direction without the express approximation: standard readout with emptied traps and forced release, no more
phases than clocking steps, instant capture. -/
structure CornerDirection (d : Direction K) : Prop where
  roe : ∃ dw i, d.roe = .standard dw true true true i ∧ d.ccd.fractions.length ≤ dw.length
  ccd : GoodFill d.ccd
  groups : ∀ g ∈ d.groups, g.Instant
  express : d.express = 0

/-! ## one direction -/

/-- The matrices of a standard readout with `express = 0`. -/
theorem exact_cfg (dw : List K) (i : Bool) (ccd : CcdView K) (o : ℕ) (rows : List ℕ) (tw : Option (List ℕ))
    (hne : rows ≠ []) (hcov : Covering o rows tw) :
    ∃ cfg a, clockCfg (.standard dw true true true i) ccd 0 o rows tw = .ok (cfg, .standard dw true true true i) ∧
      rows.max? = some a ∧ cfg.expr.nr = a + 1 + o ∧ cfg.expr.nc = rows.length ∧ cfg.monitor.nc = rows.length ∧
      (∀ k j, cfg.saveMat.e k j = false) ∧
      ∀ k < cfg.expr.nr, ∀ j < rows.length, (cfg.expr.e k j = if k ≤ rows.getD j 0 + o then 1 else 0) ∧
        (cfg.monitor.e k j = true ↔ k ≤ rows.getD j 0 + o) := by
  obtain ⟨⟨cfg, roe'⟩, h⟩ := standard_cfg dw i ccd 0 o rows tw hne (by rintro ⟨_, h, _⟩; exact h rfl) (by
    intro t ht
    rcases hcov with rfl | ⟨N, rfl, hN⟩
    · cases ht
    · cases ht
      obtain ⟨x, l, rfl⟩ := List.exists_cons_of_ne_nil hne
      have := hN x List.mem_cons_self
      intro h
      rw [List.range_eq_nil] at h
      omega)
  obtain ⟨f1, f2, -⟩ := clockCfg_fields h
  simp only [Roe.express] at f1
  obtain ⟨⟨m, mon⟩, g1, g2⟩ := bind_eq_ok f1
  injection g2 with g2
  injection g2 with g3 g4
  injection g4 with g4 g5
  subst g3 g4 g5
  obtain ⟨a, ha, h1, h2, h3, h4⟩ := standard_full hcov g1
  refine ⟨cfg, a, h, ha, h1, h2, h3, fun k j => ?_, h4⟩
  simp only [Roe.save, roeSave, if_true] at f2
  injection f2 with f2
  rw [← f2]

/-- Rows beyond `R`, at the end of the window, are additional rows in the sense of `PrefixCfg`. -/
theorem prefixCfg_of (dw : List K) (i : Bool) (ccd : CcdView K) (o R : ℕ) (pre suf : List ℕ)
    (twA twB : Option (List ℕ)) (hne : pre ≠ []) (hlow : ∀ w ∈ pre, w ≤ R) (hhigh : ∀ w ∈ suf, R < w)
    (hA : Covering o (pre ++ suf) twA) (hB : Covering o pre twB) :
    ∃ A B, clockCfg (.standard dw true true true i) ccd 0 o (pre ++ suf) twA = .ok (A, .standard dw true true true i) ∧
      clockCfg (.standard dw true true true i) ccd 0 o pre twB = .ok (B, .standard dw true true true i) ∧
      PrefixCfg A B pre.length R ∧ B.expr.nc ≤ A.expr.nc := by
  obtain ⟨A, a, hA0, a1, a2, a3, a4, a5, a6⟩ := exact_cfg dw i ccd o (pre ++ suf) twA (by simp [hne]) hA
  obtain ⟨B, b, hB0, b1, b2, b3, b4, b5, b6⟩ := exact_cfg dw i ccd o pre twB hne hB
  obtain ⟨-, -, p3, p4, p5, p6, p7, p8⟩ := clockCfg_fields hA0
  obtain ⟨-, -, q3, q4, q5, q6, q7, q8⟩ := clockCfg_fields hB0
  have hba : b ≤ a := by
    have h1 := (List.max?_eq_some_iff.1 b1).1
    exact (List.max?_eq_some_iff.1 a1).2 b (List.mem_append_left _ h1)
  have hnr : B.expr.nr ≤ A.expr.nr := by omega
  have hget : ∀ j < pre.length, (pre ++ suf).getD j 0 = pre.getD j 0 := fun j hj => by
    rw [List.getD_eq_getElem?_getD, List.getD_eq_getElem?_getD, List.getElem?_append_left hj]
  have hlen : ∀ j < pre.length, j < (pre ++ suf).length := fun j hj => by rw [List.length_append]; omega
  refine ⟨A, B, hA0, hB0, ⟨by rw [p3, q3], by rw [p4, q4], by rw [p5, q5], by rw [p6, q6], by rw [p8, q8], ?_, ?_, ?_,
    ?_, a5, b5, hnr, ?_, ?_⟩, by rw [a3, b3, List.length_append]; omega⟩
  · intro j hj
    rw [p7, q7, List.getElem?_append_left hj]
  · intro j hj w hw
    rw [q7] at hw
    exact hlow w (List.mem_of_getElem? hw)
  · intro j hj w hw
    rw [p7, List.getElem?_append_right hj] at hw
    exact hhigh w (List.mem_of_getElem? hw)
  · intro k hk j hj
    rw [(a6 k (by omega) j (hlen j hj)).1, (b6 k hk j hj).1, hget j hj]
  · intro k hk
    refine ⟨((List.range suf.length).map (pre.length + ·)).filter fun j => A.monitor.e k j, ?_, ?_, ?_⟩
    · unfold monitoredRows
      rw [a4, b4, List.length_append, List.range_add, List.filter_append]
      congr 1
      refine List.filter_congr fun j hj => ?_
      have hj := List.mem_range.1 hj
      have h1 := (a6 k (by omega) j (hlen j hj)).2
      have h2 := (b6 k hk j hj).2
      rw [hget j hj] at h1
      exact Bool.eq_iff_iff.2 (h1.trans h2.symm)
    · intro j hj
      have := monitoredRows_lt hj
      omega
    · intro j hj
      obtain ⟨h1, -⟩ := List.mem_filter.1 hj
      obtain ⟨x, -, rfl⟩ := List.mem_map.1 h1
      omega
  · intro k hk hk' j hj
    by_contra hc
    have hj' : j < pre.length := by omega
    obtain ⟨h1, h2⟩ := mem_monitoredRows.1 hj
    have h3 := (a6 k hk' j (hlen j hj')).2.1 h2
    rw [hget j hj', List.getD_eq_getElem _ _ hj'] at h3
    have h4 := (List.max?_eq_some_iff.1 b1).2 pre[j] (List.getElem_mem hj')
    omega

/-- One column of two images that agree up to row `R`, with a row window `pre` up to `R`, and with further rows. -/
theorem corner_column (i j : Image K) (d : Direction K) (hd : CornerDirection d) (o R : ℕ) (pre suf : List ℕ)
    (twA twB : Option (List ℕ)) (hne : pre ≠ []) (hlow : ∀ w ∈ pre, w ≤ R) (hhigh : ∀ w ∈ suf, R < w)
    (hA : Covering o (pre ++ suf) twA) (hB : Covering o pre twB) (hi : ∀ w ∈ pre ++ suf, w < i.nr)
    (hRi : R < i.nr) (hRj : R < j.nr) (c : ℕ) (hci : c < i.nc) (hcj : c < j.nc) (hag : ∀ r ≤ R, i.px r c = j.px r c) :
    ∃ oi oj, clockCharge i d.ccd d.roe d.groups d.express o (pre ++ suf) [c] twA = .ok (oi, d.roe) ∧
      clockCharge j d.ccd d.roe d.groups d.express o pre [c] twB = .ok (oj, d.roe) ∧
      ∀ r ≤ R, oi.px r c = oj.px r c := by
  obtain ⟨⟨dw, inv, hroe, hlen⟩, hccd, hgr, hex⟩ := hd
  rw [hroe, hex]
  obtain ⟨A, B, hA0, hB0, hP, hnc⟩ := prefixCfg_of dw inv d.ccd o R pre suf twA twB hne hlow hhigh hA hB
  set roe : Roe K := .standard dw true true true inv with hr
  have hlowz : ∀ w : ℕ, ∀ z ∈ roe.accessed, 0 ≤ (w : ℤ) + z := by
    intro w z hz
    have := (C14_accessed roe z hz).1 rfl
    omega
  have hfill : ∀ ph < d.ccd.fractions.length, FillModel (d.ccd.fill ph) := fun ph h => (hccd.2 ph h).1
  obtain ⟨NA, posA, sA, mA⟩ := schedule_of hA0 (Or.inl rfl)
  obtain ⟨NB, posB, sB, mB⟩ := schedule_of hB0 (Or.inl rfl)
  -- the second image, with the other columns of the first
  let j' : Image K := ⟨j.nr, j.nc, fun r c' => if c' = c then j.px r c else i.px r c'⟩
  have rA := runCfg_of hA0 hfill hlen trivial i.nr hi (fun w _ => hlowz w)
  have rB := runCfg_of hB0 hfill hlen trivial j'.nr (fun w hw => (hlow w hw).trans_lt hRj) (fun w _ => hlowz w)
  have posOf : ∀ (cfg : ClockCfg K), cfg.phases = positiveIndices d.ccd.fractions →
      ∀ ph ∈ cfg.phases, ∀ n, 0 < n → 0 < d.ccd.fill ph n := fun cfg e ph hph => by
    rw [e] at hph
    exact (hccd.2 ph (mem_positiveIndices.1 hph).1).2
  have ebA : A.emptyBetween = true := (clockCfg_fields hA0).2.2.2.2.2.2.2
  have ebB : B.emptyBetween = true := (clockCfg_fields hB0).2.2.2.2.2.2.2
  have hst : ∀ (img : Image K) M M', BothCap (0 < ·) M M' d.ccd.fractions.length (img.nr + nPadding roe.accessed) img.nc
      (fun _ => 0) 0 (img.pad (nPadding roe.accessed), ATM.new d.groups d.ccd.fractions M,
        ATM.new d.groups d.ccd.fractions M') := fun img M M' =>
    ⟨rfl, rfl, stateCap_new d.groups d.ccd.fractions hccd.1 hgr⟩
  obtain ⟨outA, sA1, -, hA1, -, -⟩ := bothCap_loops rA (posOf A (clockCfg_fields hA0).2.2.2.2.2.1) le_rfl sA ebA [c]
    (by simpa using hci) _ (hst i _ _)
  have hcap : NB * B.steps.length ≤ maxNTransfers roe A := by
    rw [← mB]
    change B.expr.nc * _ ≤ A.expr.nc * _
    rw [hP.steps]
    exact Nat.mul_le_mul_right _ hnc
  obtain ⟨outB, sB1, sB2, hB1, hB2, -, -⟩ := bothCap_loops rB (posOf B (clockCfg_fields hB0).2.2.2.2.2.1) hcap sB ebB [c]
    (by simpa using hcj) _ (hst j' _ _)
  rw [← mA] at hA1
  rw [← mB] at hB1
  have hF : Forward B.clockSeq := by
    rw [(clockCfg_fields hB0).2.2.1]
    exact forward_of_force roe rfl
  have key := clockLoops_prefix d.ccd.fill hP hF ebB [c] (D := (ATM.new d.groups d.ccd.fractions (maxNTransfers roe A)).data)
    _ _ (by
      intro r hr c'
      simp only [Image.pad]
      rw [if_pos (by omega), if_pos (by change r < j.nr; omega)]
      simp only [j']
      split
      · rename_i h; rw [h]; exact hag r hr
      · rfl) (fresh_new _ _ _) (fresh_new _ _ _) _ _ hA1 hB2
  have hA2 := clockCharge_of hA0 hA1
  have hB3 := clockCharge_of hB0 hB1
  obtain ⟨oj, hoj, hpx⟩ := C27_input j' j d.ccd roe d.groups 0 o pre c twB rfl rfl (fun r _ => by simp [j']) _ _ hB3
  exact ⟨_, oj, hA2, hoj, fun r hr => by rw [hpx r]; exact key r hr c⟩

/-- **C66** for one direction: with `express = 0` what a pixel gets depends neither on whether rows farther from the
readout are in the row window or in the image at all, nor on which other columns are. -/
theorem C66_clock (i j : Image K) (d : Direction K) (hd : CornerDirection d) (o R : ℕ) (pre suf columns columns' : List ℕ)
    (twA twB : Option (List ℕ)) (hne : pre ≠ []) (hlow : ∀ w ∈ pre, w ≤ R) (hhigh : ∀ w ∈ suf, R < w)
    (hA : Covering o (pre ++ suf) twA) (hB : Covering o pre twB) (hi : ∀ w ∈ pre ++ suf, w < i.nr)
    (hRi : R < i.nr) (hRj : R < j.nr) (hnd : columns.Nodup) (hnd' : columns'.Nodup) (hsub : ∀ c ∈ columns', c ∈ columns)
    (hci : ∀ c ∈ columns, c < i.nc) (hcj : ∀ c ∈ columns', c < j.nc) (hne' : columns' ≠ [])
    (hag : ∀ r ≤ R, ∀ c ∈ columns', i.px r c = j.px r c) :
    ∃ oi oj, clockCharge i d.ccd d.roe d.groups d.express o (pre ++ suf) columns twA = .ok (oi, d.roe) ∧
      clockCharge j d.ccd d.roe d.groups d.express o pre columns' twB = .ok (oj, d.roe) ∧
      ∀ r ≤ R, ∀ c ∈ columns', oi.px r c = oj.px r c := by
  have hb : d.roe.emptyBetween = true := by
    obtain ⟨⟨dw, inv, hroe, -⟩, -⟩ := hd
    rw [hroe]; rfl
  have one : ∀ c ∈ columns', _ := fun c hc => corner_column i j d hd o R pre suf twA twB hne hlow hhigh hA hB hi hRi hRj c
    (hci c (hsub c hc)) (hcj c hc) (fun r hr => hag r hr c hc)
  have hneA : columns ≠ [] := by
    obtain ⟨c, l, rfl⟩ := List.exists_cons_of_ne_nil hne'
    exact List.ne_nil_of_mem (hsub c List.mem_cons_self)
  obtain ⟨⟨oi, ri⟩, h1⟩ := C27_join i d.ccd d.roe d.groups d.express o (pre ++ suf) columns twA hb hnd hneA
    fun c hc => by
      -- any other image will do
      obtain ⟨oi, -, h, -⟩ := corner_column i ⟨i.nr, i.nc, i.px⟩ d hd o R pre suf twA twB hne hlow hhigh hA hB hi hRi hRi c
        (hci c hc) (hci c hc) fun _ _ => rfl
      exact ⟨_, h⟩
  obtain ⟨⟨oj, rj⟩, h2⟩ := C27_join j d.ccd d.roe d.groups d.express o pre columns' twB hb hnd' hne' fun c hc => by
    obtain ⟨-, oj, -, h, -⟩ := one c hc
    exact ⟨_, h⟩
  have g1 := (C27_columns i d.ccd d.roe d.groups d.express o (pre ++ suf) columns twA hb hnd oi ri h1).1
  have g2 := (C27_columns j d.ccd d.roe d.groups d.express o pre columns' twB hb hnd' oj rj h2).1
  have hroes : ri = d.roe ∧ rj = d.roe := by
    obtain ⟨c, l, rfl⟩ := List.exists_cons_of_ne_nil hne'
    obtain ⟨a, b, q1, q2, -⟩ := one c List.mem_cons_self
    obtain ⟨a', p1, -⟩ := g1 c (hsub c List.mem_cons_self)
    obtain ⟨b', p2, -⟩ := g2 c List.mem_cons_self
    rw [q1] at p1
    rw [q2] at p2
    injection p1 with p1
    injection p2 with p2
    injection p1 with _ p1
    injection p2 with _ p2
    exact ⟨p1.symm, p2.symm⟩
  obtain ⟨rfl, rfl⟩ := hroes
  refine ⟨oi, oj, h1, h2, fun r hr c hc => ?_⟩
  obtain ⟨a, b, q1, q2, q3⟩ := one c hc
  obtain ⟨a', p1, p2⟩ := g1 c (hsub c hc)
  obtain ⟨b', p3, p4⟩ := g2 c hc
  rw [q1] at p1
  rw [q2] at p3
  injection p1 with p1
  injection p3 with p3
  injection p1 with p1 _
  injection p3 with p3 _
  subst p1 p3
  rw [← p2, ← p4, q3 r hr]

/-! ## `add_cti` and `remove_cti` -/

theorem range_split {n N : ℕ} (h : n ≤ N) : List.range N = List.range n ++ (List.range (N - n)).map (n + ·) := by
  conv_lhs => rw [show N = n + (N - n) by omega]
  exact List.range_add

/-- One direction on whole images. -/
theorem corner_direction (i j : Image K) (d : Direction K) (hd : CornerDirection d) (o : ℕ) (twA twB : Option (List ℕ))
    (hn : 0 < j.nr) (hm : 0 < j.nc) (hnr : j.nr ≤ i.nr) (hnc : j.nc ≤ i.nc)
    (hA : Covering o (List.range i.nr) twA) (hB : Covering o (List.range j.nr) twB)
    (hag : ∀ r < j.nr, ∀ c < j.nc, i.px r c = j.px r c) :
    ∃ oi oj, clockCharge i d.ccd d.roe d.groups d.express o (List.range i.nr) (List.range i.nc) twA = .ok (oi, d.roe) ∧
      clockCharge j d.ccd d.roe d.groups d.express o (List.range j.nr) (List.range j.nc) twB = .ok (oj, d.roe) ∧
      oi.nr = i.nr ∧ oi.nc = i.nc ∧ oj.nr = j.nr ∧ oj.nc = j.nc ∧
      ∀ r < j.nr, ∀ c < j.nc, oi.px r c = oj.px r c := by
  rw [range_split hnr] at hA ⊢
  obtain ⟨oi, oj, h1, h2, h3⟩ := C66_clock i j d hd o (j.nr - 1) (List.range j.nr) ((List.range (i.nr - j.nr)).map (j.nr + ·))
    (List.range i.nc) (List.range j.nc) twA twB (by rw [ne_eq, List.range_eq_nil]; omega)
    (fun w hw => by have := List.mem_range.1 hw; omega)
    (fun w hw => by obtain ⟨x, -, rfl⟩ := List.mem_map.1 hw; omega) hA hB
    (fun w hw => by rw [← range_split hnr] at hw; exact List.mem_range.1 hw) (by omega) (by omega)
    List.nodup_range List.nodup_range (fun c hc => by rw [List.mem_range] at hc ⊢; omega)
    (fun c hc => List.mem_range.1 hc) (fun c hc => List.mem_range.1 hc) (by rw [ne_eq, List.range_eq_nil]; omega)
    (fun r hr c hc => hag r (by omega) c (List.mem_range.1 hc))
  have s1 := clockCharge_shape h1
  have s2 := clockCharge_shape h2
  exact ⟨oi, oj, h1, h2, s1.1, s1.2, s2.1, s2.2, fun r hr c hc => h3 r (by omega) c (List.mem_range.2 hc)⟩

/-- **C66** for `add_cti` in both directions: if a small image agrees with the corner of a large one, so do the
results. -/
theorem C66_agree (i j : Image K) (par ser : Option (Direction K)) (o : ℕ) (hp : ∀ d ∈ par, CornerDirection d)
    (hs : ∀ d ∈ ser, CornerDirection d) (hn : 0 < j.nr) (hm : 0 < j.nc) (hnr : j.nr ≤ i.nr) (hnc : j.nc ≤ i.nc)
    (hag : ∀ r < j.nr, ∀ c < j.nc, i.px r c = j.px r c) :
    ∃ oi oj, addCti i par o .all ser .all none = .ok (oi, par, ser) ∧
      addCti j par o .all ser .all none = .ok (oj, par, ser) ∧
      oi.nr = i.nr ∧ oi.nc = i.nc ∧ oj.nr = j.nr ∧ oj.nc = j.nc ∧
      ∀ r < j.nr, ∀ c < j.nc, oi.px r c = oj.px r c := by
  have hser : ∀ (mi mj : Image K), mi.nr = i.nr → mi.nc = i.nc → mj.nr = j.nr → mj.nc = j.nc →
      (∀ r < j.nr, ∀ c < j.nc, mi.px r c = mj.px r c) → ∃ oi oj,
      serialHalf ser (List.range i.nc) (List.range i.nr) (mi, par) = .ok (oi, par, ser) ∧
      serialHalf ser (List.range j.nc) (List.range j.nr) (mj, par) = .ok (oj, par, ser) ∧
      oi.nr = i.nr ∧ oi.nc = i.nc ∧ oj.nr = j.nr ∧ oj.nc = j.nc ∧ ∀ r < j.nr, ∀ c < j.nc, oi.px r c = oj.px r c := by
    intro mi mj h3 h4 h5 h6 h7
    cases ser with
    | none => exact ⟨mi, mj, rfl, rfl, h3, h4, h5, h6, h7⟩
    | some d =>
      obtain ⟨oi, oj, g1, g2, g3, g4, g5, g6, g7⟩ := corner_direction mi.transpose mj.transpose d (hs d rfl) d.offset none none
        (by change 0 < mj.nc; omega) (by change 0 < mj.nr; omega) (by change mj.nc ≤ mi.nc; omega)
        (by change mj.nr ≤ mi.nr; omega) (Or.inl rfl) (Or.inl rfl)
        (fun r hr c hc => h7 c (by rw [← h5]; exact hc) r (by rw [← h6]; exact hr))
      change clockCharge mi.transpose d.ccd d.roe d.groups d.express d.offset (List.range mi.nc) (List.range mi.nr) none = _
        at g1
      change clockCharge mj.transpose d.ccd d.roe d.groups d.express d.offset (List.range mj.nc) (List.range mj.nr) none = _
        at g2
      rw [h3, h4] at g1
      rw [h5, h6] at g2
      refine ⟨oi.transpose, oj.transpose, ?_, ?_, g4.trans h3, g3.trans h4, g6.trans h5, g5.trans h6, fun r hr c hc =>
        g7 c (by rw [← h6] at hc; exact hc) r (by rw [← h5] at hr; exact hr)⟩
      · simp only [serialHalf, g1, bind_ok]
      · simp only [serialHalf, g2, bind_ok]
  rw [addCti_halves, addCti_halves]
  simp only [Window.resolve, Option.getD_none, bind_ok]
  cases par with
  | none => exact hser i j rfl rfl rfl rfl hag
  | some d =>
    obtain ⟨mi, mj, h1, h2, h3, h4, h5, h6, h7⟩ := corner_direction i j d (hp d rfl) o (some (List.range (i.nr + o)))
      (some (List.range (j.nr + o))) hn hm hnr hnc (Or.inr ⟨_, rfl, fun x hx => List.mem_range.1 hx⟩)
      (Or.inr ⟨_, rfl, fun x hx => List.mem_range.1 hx⟩) hag
    simp only [bothHalves, h1, h2, bind_ok]
    exact hser mi mj h3 h4 h5 h6 h7

/-- **C66**: `add_cti(image)[:n, :m] == add_cti(image[:n, :m])`. -/
theorem C66_add_cti (img : Image K) (par ser : Option (Direction K)) (o : ℕ) (hp : ∀ d ∈ par, CornerDirection d)
    (hs : ∀ d ∈ ser, CornerDirection d) (n m : ℕ) (hn : 0 < n) (hm : 0 < m) (hnr : n ≤ img.nr) (hnc : m ≤ img.nc) :
    ∃ out part, addCti img par o .all ser .all none = .ok (out, par, ser) ∧
      addCti (img.corner n m) par o .all ser .all none = .ok (part, par, ser) ∧ part.nr = n ∧ part.nc = m ∧
      ∀ r < n, ∀ c < m, part.px r c = out.px r c := by
  obtain ⟨oi, oj, h1, h2, -, -, h3, h4, h5⟩ := C66_agree img (img.corner n m) par ser o hp hs hn hm hnr hnc
    fun _ _ _ _ => rfl
  exact ⟨oi, oj, h1, h2, h3, h4, fun r hr c hc => (h5 r hr c hc).symm⟩

/-- **C66** for `remove_cti` with any number of iterations. -/
theorem C66_remove_cti (img : Image K) (iterations : ℕ) (par ser : Option (Direction K)) (o : ℕ)
    (hp : ∀ d ∈ par, CornerDirection d) (hs : ∀ d ∈ ser, CornerDirection d) (n m : ℕ) (hn : 0 < n) (hm : 0 < m)
    (hnr : n ≤ img.nr) (hnc : m ≤ img.nc) :
    ∃ out part, removeCti img iterations par o .all ser .all none = .ok (out, par, ser) ∧
      removeCti (img.corner n m) iterations par o .all ser .all none = .ok (part, par, ser) ∧ part.nr = n ∧ part.nc = m ∧
      ∀ r < n, ∀ c < m, part.px r c = out.px r c := by
  unfold removeCti
  have key : ∀ (t : ℕ) (i j : Image K), i.nr = img.nr → i.nc = img.nc → j.nr = n → j.nc = m →
      (∀ r < n, ∀ c < m, i.px r c = j.px r c) →
      ∃ out part, removeIter (fun cur s => addCti cur s.1 o .all s.2 .all none) img t (i, par, ser) = .ok (out, par, ser) ∧
        removeIter (fun cur s => addCti cur s.1 o .all s.2 .all none) (img.corner n m) t (j, par, ser) =
          .ok (part, par, ser) ∧ part.nr = n ∧ part.nc = m ∧ ∀ r < n, ∀ c < m, part.px r c = out.px r c := by
    intro t
    induction t with
    | zero => intro i j _ _ h1 h2 h3; exact ⟨i, j, rfl, rfl, h1, h2, fun r hr c hc => (h3 r hr c hc).symm⟩
    | succ t ih =>
      intro i j h1 h2 h3 h4 h5
      obtain ⟨oi, oj, g1, g2, g3, g4, g5, g6, g7⟩ := C66_agree i j par ser o hp hs (by omega) (by omega) (by omega) (by omega)
        (fun r hr c hc => h5 r (by omega) c (by omega))
      unfold removeIter
      simp only [g1, g2, bind_ok]
      refine ih _ _ h1 h2 h3 h4 fun r hr c hc => ?_
      simp only
      rw [h5 r hr c hc, g7 r (by omega) c (by omega)]
      rfl
  exact key iterations img (img.corner n m) rfl rfl rfl rfl fun _ _ _ _ => rfl

/-! ## examples -/

/-- Two steps per transfer in the parallel direction, one in the serial direction. -/
def exCorner (steps : List ℚ) (express : ℕ) : Direction ℚ :=
  ⟨exCcd, .standard steps true true true false, [exGroup], express, 0⟩

/-- The directions of the examples meet the hypotheses. -/
theorem exCorner_exact (steps : List ℚ) (h : steps ≠ []) : CornerDirection (exCorner steps 0) :=
  ⟨⟨steps, false, rfl, by obtain ⟨x, l, rfl⟩ := List.exists_cons_of_ne_nil h; simp [exCorner, exCcd]⟩,
    goodFill_exCcd, by
      intro g hg
      obtain rfl : g = exGroup := by simpa [exCorner] using hg
      exact ⟨fun j => by simp [exGroup], fun _ _ => 1 / 2, rfl, fun x _ j => by norm_num⟩, rfl⟩

/-- The first two rows of three, alone and with the third. -/
example :
    let f := fun n => (addCti ((exImg 3 2 [[40, 5], [80, 20], [10, 0]]).corner n 2) (some (exCorner [1, 1] 0)) 0 .all
      (some (exCorner [1] 0)) .all none).map fun x => x.1.rows
    f 3 = .ok [[6651 / 200, 884583 / 160000], [204312069 / 3200000, 45850843377 / 2560000000],
        [11756062982871 / 819200000000, 1513322133931143 / 655360000000000]] ∧
      f 2 = .ok [[6651 / 200, 884583 / 160000], [204312069 / 3200000, 45850843377 / 2560000000]] := by decide +kernel

/-- **C66** (counterexample): with `express = 2` the number of rows changes the result of the second row, since it decides
which transfers are treated together. -/
theorem C66_express_false :
    let img := exImg 4 1 [[40], [80], [10], [90]]
    let f := fun n => (addCti (img.corner n 1) (some (exCorner [1] 2)) 0 .all none .all none).map fun x => x.1.rows
    f 4 = .ok [[36], [343 / 5], [4847 / 320], [2254449 / 32000]] ∧ f 2 = .ok [[36], [3411 / 50]] := by decide +kernel

end Arctic
