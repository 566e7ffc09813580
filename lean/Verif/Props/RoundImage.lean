import Verif.Lemmas.RoundColumn
import Verif.Props.Reference
import Verif.Props.Order
import Verif.Props.FloatExpress
import Verif.Lemmas.RoundMatrix
import Verif.Model.FloatMain
import Verif.Lemmas.RefLift

/-!
# C93 — the readout in double precision is close to the readout in real numbers

Every single operation of the clocking loops is rounded. For instant-capture traps the differences are bounded over a whole
readout, for any image that stays in the range where the filling law is smooth.
-/

set_option linter.unusedSectionVars false
set_option linter.unusedVariables false

namespace Arctic
namespace Fp

open B64 MeasureTheory

variable {sum : List B64 → B64}

/-- The image of real numbers that an image of doubles stands for. -/
noncomputable def realImage (img : Image B64) : Image ℝ := ⟨img.nr, img.nc, fun r c => rl (img.px r c)⟩

/-- A group of instant-capture species as the code gets it, in doubles, and as it is meant: the same densities, and the
fractions of the traps that stay filled during a dwell time within `c.κ`. -/
structure GroupNear (c : Scale) (dwell : B64) (dw : ℝ) (g : Group B64) (t : Ref.Traps) : Prop where
  species : 0 < g.s ∧ g.s ≤ c.S
  dens : DensOk c.N g.dens
  kind : ∃ p keep, g.kind = .instant p ∧ t = ⟨g.s, fun j => rl (g.dens j), keep, fun _ _ => 0⟩ ∧
    (∀ j, Unit01 (p dwell j)) ∧ (∀ j, (p dwell j).val < 1) ∧ (∀ j, |rl (p dwell j) - keep dw j| ≤ c.κ) ∧
    ∀ j, 0 ≤ keep dw j ∧ keep dw j ≤ 1

theorem GroupNear.manager {c : Scale} {dwell : B64} {dw : ℝ} {g : Group B64} {t : Ref.Traps} (h : GroupNear c dwell dw g t)
    (T : ℕ) : MgrNear c dwell dw (1 + T) 0 (newMgr (B64.arith sum) (fun j => (B64.arith sum).mul (g.dens j) B64.one) g.kind T) t := by
  obtain ⟨h1, h2, p, keep, h3, rfl, h4, h5, h6, h7⟩ := h
  have hv : ∀ j, ∃ q, Val (g.dens j) q ∧ Val ((B64.arith sum).mul (g.dens j) B64.one) q ∧ 0 ≤ q := fun j => by
    obtain ⟨q, hq, q0⟩ := h2.fin j
    exact ⟨q, hq, val_mul_one hq, q0⟩
  have hval : ∀ j, ((B64.arith sum).mul (g.dens j) B64.one).val = (g.dens j).val := fun j => by
    obtain ⟨q, hq, hq', -⟩ := hv j
    rw [hq.val, hq'.val]
  have hrl : ∀ j, rl ((B64.arith sum).mul (g.dens j) B64.one) = rl (g.dens j) := fun j => by unfold rl; rw [hval]
  have hz : ∀ r ∈ List.replicate (1 + T * g.kind.perTransfer) (zeroRow (B64.arith sum) g.s), r = zeroRow (B64.arith sum) g.s :=
    fun r hr => List.eq_of_mem_replicate hr
  have hper : g.kind.perTransfer = 1 := by rw [h3]; rfl
  refine ⟨h1, ⟨h2.one_le, h2.le_big, fun j => ?_, ?_⟩, ⟨tally_blank _ hz, ?_⟩, p, keep, h3, ?_, h4, h5, h6, h7⟩
  · obtain ⟨q, -, hq, q0⟩ := hv j
    exact ⟨q, hq, q0⟩
  · simp only [newMgr, hval]
    exact h2.total
  · simp only [newMgr, List.length_replicate, hper, mul_one]
  · unfold refOf newMgr
    simp only [hrl]
    congr 1
    funext d j
    exact (occ_blank _ hz d j).symm

theorem managers_near {c : Scale} {dwell : B64} {dw : ℝ} {groups : List (Group B64)} {traps : List Ref.Traps}
    (h : List.Forall₂ (GroupNear c dwell dw) groups traps) (T : ℕ) :
    List.Forall₂ (MgrNear c dwell dw (1 + T) 0)
      (groups.map fun g => newMgr (B64.arith sum) (fun j => (B64.arith sum).mul (g.dens j) B64.one) g.kind T) traps ∧
      traps.map Ref.Traps.empty = traps := by
  induction h with
  | nil => exact ⟨.nil, rfl⟩
  | @cons g t gs ts hg hgs ih =>
    refine ⟨.cons (hg.manager T) ih.1, ?_⟩
    obtain ⟨p, keep, -, e, -⟩ := hg.kind
    rw [List.map_cons, ih.2, e]
    rfl

/-- Express matrices of doubles and of real numbers that agree. -/
structure SameMatrix (rows : List ℕ) (m' : Mat B64) (mon' : Mat Bool) (m : Mat ℝ) (mon : Mat Bool) : Prop where
  nr : m'.nr = m.nr
  nc : m'.nc = rows.length
  mon_nc : mon'.nc = rows.length
  entry : ∀ k < m.nr, ∀ j < rows.length, ∃ q : ℚ, Val (m'.e k j) q ∧ m.e k j = q
  mon : ∀ k < m.nr, ∀ j < rows.length, mon'.e k j = mon.e k j

theorem one_phase_shape : genClockSequence (K := ℚ) 1 1 true = [[⟨true, 0, [(0, 1)]⟩]] := by
  have h1 : highPhase 1 0 = 0 := by decide
  have h2 : stepPrime 1 0 = 0 := by decide
  have h3 : splitReleasePhase 1 0 = none := by decide
  simp [genClockSequence, genPhase, h1, h2, h3]

theorem one_div_one : (B64.arith sum).div (B64.arith sum).one (B64.conv.int ((1 : ℕ) : ℤ)) = B64.one :=
  show D.div D.one (B64.conv.int ((1 : ℕ) : ℤ)) = B64.one by decide +kernel

set_option maxHeartbeats 1000000 in
/-- The readout in double precision against the reference simulation. -/
theorem clock_near [AnyOrder sum] {c : Scale} {M : ℚ} {groups : List (Group B64)} (hW : Whole c groups.length M) (hnet : 0 ≤ c.net)
    {fill : ℕ → B64 → B64} {f : ℝ → ℝ} {lo : ℝ} (hf : FillSet c (fill 0) f lo) {dwell : B64} {dq : ℚ} (hdq : Val dwell dq)
    (hdq0 : 0 < dq) {dw : ℝ} {traps : List Ref.Traps} (hg : List.Forall₂ (GroupNear c dwell dw) groups traps)
    (hts : Ref.Few dw c.L traps) (hML : M * (Ref.totals traps * c.L) ≤ 1) (hl1 : 2 * (Ref.totals traps * c.L) < 1)
    {i : Bool} {e o : ℕ} {rows columns : List ℕ} {tw : Option (List ℕ)} {m' : Mat B64} {mon' : Mat Bool} {m : Mat ℝ}
    {mon : Mat Bool} (hm' : Fp.roeExpress (B64.arith sum) B64.conv true i rows e o tw = .ok (m', mon'))
    (hsame : SameMatrix rows m' mon' m mon) (hrows : rows.length ≤ c.T) (img : Image B64)
    (hgood : GoodPasses img.nr M (matrixPasses rows m mon)) {Q : ℝ} (hQ1 : 1 ≤ Q)
    (hQ : ∀ ps, ps <:+ matrixPasses rows m mon → ∀ x y : ℕ → ℝ, (∀ r < img.nr, 0 ≤ x r) → (∀ r < img.nr, 0 ≤ y r) →
      colDist img.nr (Ref.readout f dw traps ps x) (Ref.readout f dw traps ps y) ≤ Q * colDist img.nr x y)
    {low high : ℝ} (hroom : Room c groups.length M lo (Ref.totals traps) m.nr low high)
    (hnd : columns.Nodup) (hcols : ∀ q ∈ columns, q < img.nc)
    (himg : ∀ r < img.nr, ∀ q ∈ columns, ∃ v : ℚ, Val (img.px r q) v ∧ low ≤ (v : ℝ) ∧ (v : ℝ) ≤ high) :
    ∃ out, Fp.clockDirection (B64.arith sum) B64.conv img ⟨[B64.one], fill⟩ (.standard [dwell] true true true i) groups e o rows
        columns tw = .ok (out, .standard [dwell] true true true i) ∧ out.nr = img.nr ∧ out.nc = img.nc ∧
      (∀ r < img.nr, ∀ q ∉ columns, out.px r q = img.px r q) ∧
      ∀ q ∈ columns, (∀ r < img.nr, ∃ v : ℚ, Val (out.px r q) v ∧
          (1 - M * (Ref.totals traps * c.L)) ^ m.nr * low - m.nr * c.row groups.length M ≤ (v : ℝ) ∧
            (v : ℝ) ≤ high + m.nr * (M * Ref.totals traps + c.row groups.length M)) ∧
        colDist img.nr (fun r => rl (out.px r q))
          (Ref.readout f dw traps (matrixPasses rows m mon) fun r => rl (img.px r q)) ≤
        m.nr * (Q * c.pass groups.length M rows.length (Ref.totals traps * c.L)) := by
  set cfg : ClockCfg B64 := ⟨m', mon', ⟨m'.nr, m'.nc, fun _ _ => false⟩, [[⟨true, 0, [(0, B64.one)]⟩]], [dwell], [0], [0],
    rows, true⟩ with hcfg
  have hpos : (B64.arith sum).lt (B64.arith sum).zero dwell = true := by
    have := val_lt val_zero hdq
    exact this.trans (by simpa using hdq0)
  have hone : (B64.arith sum).lt (B64.arith sum).zero B64.one = true := show D.lt D.zero B64.one = true by decide +kernel
  have hclock : Fp.clockCfg (B64.arith sum) B64.conv (.standard [dwell] true true true i) ⟨[B64.one], fill⟩ e o rows tw =
      .ok (cfg, .standard [dwell] true true true i) := by
    unfold Fp.clockCfg Fp.expressOf
    simp only [hm', bind, Except.bind, saveOf, Fp.roeSave, if_true]
    unfold Fp.clockSequence shape
    simp only [Roe.clockSequence, Roe.nSteps, Roe.nPhases, Roe.dwell, Roe.force, Roe.emptyBetween, Fp.dwell, List.map_cons,
      List.map_nil, List.length_singleton, one_phase_shape, one_div_one]
    have e1 : Fp.positiveIndices (B64.arith sum) [dwell] = [0] := by
      unfold Fp.positiveIndices
      simp [hpos]
    have e2 : Fp.positiveIndices (B64.arith sum) [B64.one] = [0] := by
      unfold Fp.positiveIndices
      simp [hone]
    rw [e1, e2]
  have hacc : (shape (Roe.standard [dwell] true true true i)).accessed = [0, 0, 0] := by
    unfold shape Roe.accessed Roe.clockSequence
    simp only [Roe.nSteps, Roe.nPhases, Roe.dwell, Roe.force, List.map_cons, List.map_nil, List.length_singleton,
      one_phase_shape]
    simp [pixelsAccessed]
  have hpad : nPadding (shape (Roe.standard [dwell] true true true i)).accessed = 0 := by rw [hacc]; rfl
  have hmax : Fp.maxNTransfers (Roe.standard [dwell] true true true i) cfg = rows.length := by
    unfold Fp.maxNTransfers
    simp [shape, Roe.isPumping, hcfg, hsame.nc]
  obtain ⟨hmgr, hempty⟩ := managers_near hg rows.length
  have hatm : AtmNear c dwell dw (1 + rows.length) groups.length traps (newATM (B64.arith sum) groups [B64.one] rows.length) := by
    refine ⟨⟨_, traps, 0, rfl, by simp, hmgr, hempty⟩, Or.inl rfl⟩
  set todo : ℕ → List (ℕ × ℝ) := fun k =>
    ((List.range rows.length).filter fun j => mon.e k j).map fun j => (rows.getD j 0, m.e k j) with htododef
  have hpasses : (List.range cfg.expr.nr).map todo = matrixPasses rows m mon := by
    rw [hcfg]
    simp only [hsame.nr]
    rfl
  have htodo : ∀ k < cfg.expr.nr, List.Forall₂ (RowTodo cfg k) (Fp.monitoredRows cfg k) (todo k) := by
    intro k hk
    have hk' : k < m.nr := by rw [← hsame.nr]; exact hk
    have e : Fp.monitoredRows cfg k = (List.range rows.length).filter fun j => mon.e k j := by
      unfold Fp.monitoredRows
      rw [hcfg]
      simp only [hsame.mon_nc]
      refine List.filter_congr fun j hj => ?_
      exact hsame.mon k hk' j (List.mem_range.1 hj)
    rw [e, htododef, List.forall₂_map_right_iff, List.forall₂_same]
    intro j hj
    have hj' := List.mem_range.1 (List.mem_filter.1 hj).1
    refine ⟨?_, hsame.entry k hk' j hj'⟩
    rw [hcfg]
    simp only
    rw [List.getD_eq_getElem _ _ hj', List.getElem?_eq_getElem hj']
  have hpadimg : ∀ r < img.nr, ∀ q, (pad (B64.arith sum) img 0).px r q = img.px r q := fun r hr q => by simp [pad, hr]
  obtain ⟨out, a', g1, g2, g3, g4, g5⟩ := columns_near (sum := sum) hW hnet hf (cfg := cfg) (dwell := dwell)
    ⟨rfl, rfl, rfl, rfl, fun _ _ => rfl, rfl⟩ (dw := dw) (len := 1 + rows.length) (R := img.nr) (n := rows.length) hQ1 hts hML
    hl1 hrows (by omega) todo htodo (by rw [hpasses]; exact hgood)
    (fun k hk => by
      rw [htododef]
      simp only [List.length_map]
      exact (List.length_filter_le _ _).trans (by rw [List.length_range]))
    (fun ks' hks => by
      refine hQ _ ?_
      rw [← hpasses]
      obtain ⟨t, ht⟩ := hks
      exact ⟨t.map todo, by rw [← List.map_append, ht]⟩)
    (by rw [hcfg]; simp only [hsame.nr]; exact hroom) (fun q r => rl (img.px r q)) columns (pad (B64.arith sum) img 0)
    (newATM (B64.arith sum) groups [B64.one] rows.length) hnd (by simp [pad]) hcols hatm
    (fun q hq r hr => by
      obtain ⟨v, hv, -⟩ := himg r hr q hq
      exact ⟨v, by rw [hpadimg r hr]; exact hv, (rl_val hv).symm⟩)
    (fun q hq r hr => by
      obtain ⟨v, hv, hv'⟩ := himg r hr q hq
      rw [rl_val hv]; exact hv')
  refine ⟨{ out with nr := out.nr - 0 }, ?_, by simpa [pad] using g2, by simpa [pad] using g3, ?_, ?_⟩
  · unfold Fp.clockDirection
    rw [hclock]
    simp only [bind, Except.bind]
    rw [hpad, hmax]
    unfold Fp.clockCharge
    simp only [bind, Except.bind]
    rw [g1]
  · intro r hr q hq
    exact (g4 r q hq).trans (hpadimg r hr q)
  · intro q hq
    obtain ⟨y', y1, y3, y2⟩ := g5 q hq
    rw [hpasses] at y2
    have hnr : cfg.expr.nr = m.nr := by rw [hcfg]; simp only [hsame.nr]
    rw [hnr] at y2 y3
    refine ⟨fun r hr => ?_, ?_⟩
    · obtain ⟨v, hv, hv'⟩ := y1 r hr
      exact ⟨v, hv, by rw [hv']; exact y3 r hr⟩
    · have e : colDist img.nr (fun r => rl (out.px r q))
          (Ref.readout f dw traps (matrixPasses rows m mon) fun r => rl (img.px r q)) =
          colDist img.nr (Ref.readout f dw traps (matrixPasses rows m mon) fun r => rl (img.px r q)) y' := by
        unfold colDist
        refine Finset.sum_congr rfl fun r hr => ?_
        obtain ⟨v, hv, hv'⟩ := y1 r (Finset.mem_range.1 hr)
        simp only [rl_val hv]
        rw [hv', abs_sub_comm]
      exact e.le.trans y2

/-! ## C93 -/

theorem Scale.Ok.net0 {c : Scale} (h : c.Ok) : 0 ≤ c.net := by
  have h1 := h.N0
  have h2 := h.rel0
  have h3 := h.trap0
  have h4 := h.gap0
  have h5 := mul_nonneg (by linarith : (0 : ℝ) ≤ c.N) h.fr0
  have h6 := mul_nonneg (by linarith : (0 : ℝ) ≤ 2 * c.N) Scale.u_pos.le
  unfold Scale.net
  linarith

theorem hom_cast : Hom (Arith.exact ℚ) (Arith.exact ℝ) (fun q : ℚ => (q : ℝ)) where
  zero := Rat.cast_zero
  one := Rat.cast_one
  add := Rat.cast_add
  sub := Rat.cast_sub
  mul := Rat.cast_mul
  lt a b := by simp [Arith.exact]

/-- The matrices of rational numbers are those of real numbers. -/
theorem cast_matrix (ef i : Bool) (w : List ℕ) (e o : ℕ) (tw : Option (List ℕ)) :
    (Arctic.roeExpress (K := ℚ) ef i w e o tw).map (fun x => (mapMat (fun q : ℚ => (q : ℝ)) x.1, x.2)) =
      Arctic.roeExpress (K := ℝ) ef i w e o tw := by
  rw [← exact_roeExpressOf, ← exact_roeExpressOf, hom_roeExpressOf hom_cast]
  have e1 : (fun z : ℤ => (((z : ℚ)) : ℝ)) = fun z : ℤ => (z : ℝ) := by funext z; simp
  have e2 : (fun a b : ℕ => ((maxMultiplier (K := ℚ) i a b : ℚ) : ℝ)) = maxMultiplier (K := ℝ) i := by
    funext a b
    unfold maxMultiplier
    split <;> simp
  rw [e1, e2]

/-- One direction of clocking in double precision and what it stands for: `fill` approximates the filling law `F`, which has
slope at most `c.L` for clouds of more than `lo` electrons; the groups approximate `traps`. -/
structure Precise (c : Scale) (fill : B64 → B64) (F : ℝ → ℝ) (lo : ℝ) (dwell : B64) (dw : ℝ) (groups : List (Group B64))
    (traps : List Ref.Traps) : Prop where
  whole : Whole c groups.length 1
  smooth : ∃ f, FillSet c fill f lo ∧ ∀ z, lo ≤ z → F z = f z
  model : FillModel F
  pos : ∀ n, 0 < n → 0 < F n
  dwell_val : ∃ q : ℚ, Val dwell q ∧ 0 < q
  dw_pos : 0 < dw
  near : List.Forall₂ (GroupNear c dwell dw) groups traps
  ok : ∀ t ∈ traps, t.Ok
  few : 2 * (Ref.totals traps * c.L) < 1

/-- The bound of `C93`: the error of all pixels of a column of `n` rows at distance `o`. -/
noncomputable def Scale.readout (c : Scale) (G n o : ℕ) (Λ : ℝ) : ℝ := ((n + o : ℕ) : ℝ) * c.pass G 1 n (Λ * c.L)

theorem reg_all {c : Scale} {dwell : B64} {dw : ℝ} {groups : List (Group B64)} {traps : List Ref.Traps}
    (h : List.Forall₂ (GroupNear c dwell dw) groups traps) : ∀ t ∈ traps, t.Reg dw :=
  (totals_le (managers_near (sum := B64.sumLeft) h 0).1).1

theorem inPhase_all {c : Scale} {dwell : B64} {dw : ℝ} {groups : List (Group B64)} {traps : List Ref.Traps}
    (h : List.Forall₂ (GroupNear c dwell dw) groups traps) : (traps.map fun t => t.inPhase 1) = traps := by
  have e : (fun t : Ref.Traps => t.inPhase 1) = Ref.Traps.empty := by
    funext t
    unfold Ref.Traps.inPhase Ref.Traps.empty
    simp only [mul_one]
  rw [e]
  exact (managers_near (sum := B64.sumLeft) h 0).2

theorem rat_full (i : Bool) (n o : ℕ) (hn : 0 < n) (tw : Option (List ℕ)) (hcov : Covering o (List.range n) tw) :
    ∃ m mon, Arctic.roeExpress (K := ℚ) true i (List.range n) 0 o tw = .ok (m, mon) := by
  obtain ⟨m, mon, h⟩ := express_full i n o hn tw hcov
  rw [← cast_matrix] at h
  cases hq : Arctic.roeExpress (K := ℚ) true i (List.range n) 0 o tw with
  | error e => rw [hq] at h; cases h
  | ok x => exact ⟨x.1, x.2, rfl⟩

set_option maxHeartbeats 1000000 in
theorem Precise.column [AnyOrder sum] {c : Scale} {fill : ℕ → B64 → B64} {F : ℝ → ℝ} {lo : ℝ} {dwell : B64} {dw : ℝ}
    {groups : List (Group B64)} {traps : List Ref.Traps} (h : Precise c (fill 0) F lo dwell dw groups traps) (img : Image B64)
    (hnr : 0 < img.nr) (i : Bool) (o : ℕ) (hT : img.nr ≤ c.T) (hb : img.nr + o ≤ 2 ^ 25) (tw : Option (List ℕ))
    (htw : tw = none ∨ tw = some (List.range (img.nr + o))) {low high : ℝ}
    (hroom : Room c groups.length 1 lo (Ref.totals traps) (img.nr + o) low high)
    (himg : ∀ r < img.nr, ∀ q < img.nc, ∃ v : ℚ, Val (img.px r q) v ∧ low ≤ (v : ℝ) ∧ (v : ℝ) ≤ high) :
    ∃ out, Fp.clockDirection (B64.arith sum) B64.conv img ⟨[B64.one], fill⟩ (.standard [dwell] true true true i) groups 0 o
        (List.range img.nr) (List.range img.nc) tw = .ok (out, .standard [dwell] true true true i) ∧
      out.nr = img.nr ∧ out.nc = img.nc ∧
      ∀ q < img.nc, (∀ r < img.nr, ∃ v : ℚ, Val (out.px r q) v ∧
          (1 - Ref.totals traps * c.L) ^ (img.nr + o) * low - (img.nr + o : ℕ) * c.row groups.length 1 ≤ (v : ℝ) ∧
            (v : ℝ) ≤ high + (img.nr + o : ℕ) * (Ref.totals traps + c.row groups.length 1)) ∧
        colDist img.nr (fun r => rl (out.px r q))
          (Ref.readout F dw traps (Ref.allPasses img.nr o) fun r => rl (img.px r q)) ≤
        c.readout groups.length img.nr o (Ref.totals traps) := by
  obtain ⟨f, hf, hFf⟩ := h.smooth
  obtain ⟨dq, hdq, hdq0⟩ := h.dwell_val
  have hreg := reg_all h.near
  have hΛ := mul_nonneg (Ref.totals_nonneg hreg) hf.lip.nonneg_slope
  have hts : Ref.Few dw c.L traps := ⟨hreg, hf.lip.nonneg_slope, by linarith [h.few]⟩
  have hML : ((1 : ℚ) : ℝ) * (Ref.totals traps * c.L) ≤ 1 := by
    rw [Rat.cast_one, one_mul]; linarith [h.few]
  have htw' : tw = none ∨ ∃ N, tw = some (List.range (N + o)) ∧ img.nr ≤ N ∧ N + o ≤ 2 ^ 53 := by
    rcases htw with h | h
    · exact Or.inl h
    · exact Or.inr ⟨img.nr, h, le_rfl, hb.trans (by norm_num)⟩
  have hcov : Covering o (List.range img.nr) tw := by
    rcases htw' with h | ⟨N, h, h', -⟩
    · exact Or.inl h
    · exact Or.inr ⟨N, h, fun x hx => (List.mem_range.1 hx).trans_le h'⟩
  obtain ⟨m, mon, hm⟩ := rat_full i img.nr o hnr tw hcov
  obtain ⟨m', mon', g1, g2, g3⟩ := full_matrix i img.nr o hnr hb tw htw' m mon hm (rat_full i img.nr o hnr none (Or.inl rfl))
  have hmR : Arctic.roeExpress (K := ℝ) true i (List.range img.nr) 0 o tw =
      .ok (mapMat (fun q : ℚ => (q : ℝ)) m, mon) := by
    rw [← cast_matrix, hm]; rfl
  have hpass := fullPasses hnr hcov hmR
  obtain ⟨a, ha, f1, f2, f3, f4⟩ := standard_full hcov hm
  have hnrm : m.nr = img.nr + o := by
    have q := List.max?_eq_some_iff.1 ha
    have q1 := List.mem_range.1 q.1
    have q2 := q.2 (img.nr - 1) (List.mem_range.2 (by omega))
    omega
  obtain ⟨c1, c2⟩ := roeExpress_cols g1
  have hsame : SameMatrix (List.range img.nr) m' mon' (mapMat (fun q : ℚ => (q : ℝ)) m) mon :=
    ⟨g2, c1, c2, fun k hk j hj => ⟨m.e k j, (g3 k hk j (by simpa using hj)).1, rfl⟩,
      fun k hk j hj => (g3 k hk j (by simpa using hj)).2⟩
  have hgood : GoodPasses img.nr ((1 : ℚ) : ℝ) (matrixPasses (List.range img.nr) (mapMat (fun q : ℚ => (q : ℝ)) m) mon) := by
    rw [hpass]
    refine ⟨?_, fun todo ht p hp => ?_⟩
    · intro todo ht
      obtain ⟨k, -, rfl⟩ := List.mem_map.1 ht
      rw [List.map_map]
      have : (Prod.fst ∘ fun r : ℕ => (r, (1 : ℝ))) = id := rfl
      rw [this, List.map_id]
      exact List.nodup_range.filter _
    · obtain ⟨p1, p2⟩ := allPasses_one img.nr o todo ht p hp
      exact ⟨p1, by rw [p2]; exact zero_le_one, by rw [p2]; simp⟩
  obtain ⟨out, r1, r2, r3, -, r4⟩ := clock_near (sum := sum) h.whole h.whole.ok.net0 hf hdq hdq0 h.near hts hML h.few g1 hsame
    (by rw [List.length_range]; exact hT) img hgood (Q := 1) le_rfl
    (fun ps hps x y _ _ => by
      rw [one_mul]
      refine readout_contract hf.lip img.nr traps hts ps (fun todo ht p hp => ?_) x y
      rw [hpass] at hps
      exact allPasses_one img.nr o todo (hps.subset ht) p hp)
    (low := low) (high := high) (by change Room _ _ _ _ _ m.nr _ _; rw [hnrm]; exact hroom) List.nodup_range
    (fun q hq => List.mem_range.1 hq) (fun r hr q hq => himg r hr q (List.mem_range.1 hq))
  refine ⟨out, r1, r2, r3, fun q hq => ?_⟩
  obtain ⟨s1, s2⟩ := r4 q (List.mem_range.2 hq)
  have em : (mapMat (fun q : ℚ => (q : ℝ)) m).nr = img.nr + o := hnrm
  rw [hpass, em, List.length_range, one_mul] at s2
  rw [em] at s1
  refine ⟨fun r hr => ?_, ?_⟩
  · obtain ⟨v, hv, v1, v2⟩ := s1 r hr
    rw [Rat.cast_one, one_mul] at v1 v2
    exact ⟨v, hv, v1, v2⟩
  · have hlow := hroom.low
    have hrow := h.whole.row0 h.whole.ok.net0
    have hP0 : (0 : ℝ) ≤ c.P * Scale.u := by
      have h1 := h.whole.ok.N0
      have h2 := h.whole.ok.P0
      exact mul_nonneg (by linarith) Scale.u_pos.le
    have hb1 : 0 ≤ 1 - ((1 : ℚ) : ℝ) * (Ref.totals traps * c.L) := by linarith
    have same := (readout_congr_fill hf.pos.le hf.lip hFf img.nr (M := ((1 : ℚ) : ℝ)) (by simp) traps hts hML
      (Ref.allPasses img.nr o) (by rw [← hpass]; exact hgood) (fun r => rl (img.px r q))
      (fun r hr => by
        obtain ⟨v, hv, v1, -⟩ := himg r hr q hq
        rw [rl_val hv]
        exact hroom.low0.trans v1)
      (fun r hr => by
        obtain ⟨v, hv, v1, -⟩ := himg r hr q hq
        rw [rl_val hv]
        have hlen : (Ref.allPasses img.nr o).length = img.nr + o := by simp [Ref.allPasses]
        rw [hlen]
        have k1 := mul_le_mul_of_nonneg_left v1 (pow_nonneg hb1 (img.nr + o))
        have k2 := h.whole.ok.rel0
        have k3 := mul_nonneg (Nat.cast_nonneg (α := ℝ) (img.nr + o)) hrow
        linarith)).1
    rw [same]
    exact s2

end Fp

open Fp B64 in
/-- **C93**, one direction: `cy_clock_charge_in_one_direction` in double precision against the same function in real
numbers. -/
theorem C93_direction {sum : List B64 → B64} [AnyOrder sum] {c : Scale} {fill : ℕ → B64 → B64} {F : ℕ → ℝ → ℝ} {lo : ℝ} {dwell : B64} {dw : ℝ}
    {groups : List (Group B64)} {traps : List Ref.Traps} (h : Precise c (fill 0) (F 0) lo dwell dw groups traps)
    (img : Image B64) (hnr : 0 < img.nr) (i : Bool) (o : ℕ) (hT : img.nr ≤ c.T) (hb : img.nr + o ≤ 2 ^ 25)
    (tw : Option (List ℕ)) (htw : tw = none ∨ tw = some (List.range (img.nr + o))) {low high : ℝ}
    (hroom : Room c groups.length 1 lo (Ref.totals traps) (img.nr + o) low high)
    (himg : ∀ r < img.nr, ∀ q < img.nc, ∃ v : ℚ, Val (img.px r q) v ∧ low ≤ (v : ℝ) ∧ (v : ℝ) ≤ high) :
    ∃ out out', Fp.clockDirection (B64.arith sum) B64.conv img ⟨[B64.one], fill⟩ (.standard [dwell] true true true i) groups 0 o
        (List.range img.nr) (List.range img.nc) tw = .ok (out, .standard [dwell] true true true i) ∧
      Arctic.clockCharge (realImage img) ⟨[1], F⟩ (.standard [dw] true true true i) (traps.map Ref.Traps.group) 0 o
        (List.range img.nr) (List.range img.nc) tw = .ok (out', .standard [dw] true true true i) ∧
      out.nr = img.nr ∧ out.nc = img.nc ∧ (∀ r < img.nr, ∀ q < img.nc, ∃ v : ℚ, Val (out.px r q) v) ∧
      ∀ q < img.nc, ∑ r ∈ Finset.range img.nr, |Fp.rl (out.px r q) - out'.px r q| ≤
        c.readout groups.length img.nr o (Ref.totals traps) := by
  obtain ⟨out, g1, g2, g3, g4⟩ := h.column (sum := sum) img hnr i o hT hb tw htw hroom himg
  have hcov : Covering o (List.range img.nr) tw := by
    rcases htw with h | h
    · exact Or.inl h
    · exact Or.inr ⟨img.nr, h, fun x hx => List.mem_range.1 hx⟩
  obtain ⟨out', q1, q2, q3, q4⟩ := (ExactDirection.mk h.dw_pos h.model h.pos h.ok : ExactDirection (F 0) dw traps).run
    (realImage img) hnr i o tw hcov
  refine ⟨out, out', g1, q1, g2, g3, fun r hr q hq => ?_, fun q hq => ?_⟩
  · obtain ⟨v, hv, -⟩ := (g4 q hq).1 r hr
    exact ⟨v, hv⟩
  · refine le_trans (le_of_eq ?_) (g4 q hq).2
    unfold colDist
    refine Finset.sum_congr rfl fun r hr => ?_
    rw [q4 r (Finset.mem_range.1 hr) q hq, (managers_near (sum := sum) h.near 0).2]
    rfl

namespace Fp

open B64 MeasureTheory

variable {sum : List B64 → B64}

theorem Room.floor {c : Scale} {G : ℕ} {lo Λ : ℝ} {K : ℕ} {low high : ℝ} (hW : Whole c G 1)
    (h : Room c G 1 lo Λ K low high) : lo ≤ (1 - Λ * c.L) ^ K * low := by
  have hlow := h.low
  have hrow := mul_nonneg (Nat.cast_nonneg (α := ℝ) K) (hW.row0 hW.ok.net0)
  have hP0 : (0 : ℝ) ≤ c.P * Scale.u := by
    have h1 := hW.ok.N0
    have h2 := hW.ok.P0
    exact mul_nonneg (by linarith) Scale.u_pos.le
  have h3 := hW.ok.rel0
  rw [Rat.cast_one, one_mul] at hlow
  linarith

/-- In exact arithmetic, pixels of at least `low` electrons remain in the range in which the filling law has a bounded slope,
and the readout does not increase the distance of two columns of such pixels. -/
theorem Precise.exact {c : Scale} {fill : B64 → B64} {F : ℝ → ℝ} {lo : ℝ} {dwell : B64} {dw : ℝ} {groups : List (Group B64)}
    {traps : List Ref.Traps} (h : Precise c fill F lo dwell dw groups traps) {n o : ℕ} {low high : ℝ}
    (hroom : Room c groups.length 1 lo (Ref.totals traps) (n + o) low high) :
    (∀ x : ℕ → ℝ, (∀ r < n, low ≤ x r) → ∀ r < n, (1 - Ref.totals traps * c.L) ^ (n + o) * low ≤
      Ref.readout F dw traps (Ref.allPasses n o) x r) ∧
    ∀ x y : ℕ → ℝ, (∀ r < n, low ≤ x r) → (∀ r < n, low ≤ y r) →
      colDist n (Ref.readout F dw traps (Ref.allPasses n o) x) (Ref.readout F dw traps (Ref.allPasses n o) y) ≤
        colDist n x y := by
  obtain ⟨f, hf, hFf⟩ := h.smooth
  have hreg := reg_all h.near
  have hΛ := mul_nonneg (Ref.totals_nonneg hreg) hf.lip.nonneg_slope
  have hts : Ref.Few dw c.L traps := ⟨hreg, hf.lip.nonneg_slope, by linarith [h.few]⟩
  have hone := allPasses_one n o
  have hgood : GoodPasses n 1 (Ref.allPasses n o) := by
    refine ⟨?_, fun todo ht p hp => ?_⟩
    · intro todo ht
      obtain ⟨k, -, rfl⟩ := List.mem_map.1 ht
      rw [List.map_map]
      have : (Prod.fst ∘ fun r : ℕ => (r, (1 : ℝ))) = id := rfl
      rw [this, List.map_id]
      exact List.nodup_range.filter _
    · obtain ⟨p1, p2⟩ := hone todo ht p hp
      exact ⟨p1, by rw [p2]; exact zero_le_one, by rw [p2]⟩
  have hlen : (Ref.allPasses n o).length = n + o := by simp [Ref.allPasses]
  have hfl := hroom.floor h.whole
  have hpow : 0 ≤ (1 - Ref.totals traps * c.L) ^ (n + o) := pow_nonneg (by linarith [h.few]) _
  have key := fun (x : ℕ → ℝ) (hx : ∀ r < n, low ≤ x r) =>
    readout_congr_fill hf.pos.le hf.lip hFf n (M := 1) zero_le_one traps hts (by linarith [h.few]) (Ref.allPasses n o) hgood x
      (fun r hr => hroom.low0.trans (hx r hr))
      (fun r hr => by
        rw [hlen, one_mul]
        exact hfl.trans (mul_le_mul_of_nonneg_left (hx r hr) hpow))
  refine ⟨fun x hx r hr => ?_, fun x y hx hy => ?_⟩
  · rw [(key x hx).1]
    have := (key x hx).2 r hr
    rw [hlen, one_mul] at this
    exact (mul_le_mul_of_nonneg_left (hx r hr) hpow).trans this
  · rw [(key x hx).1, (key y hy).1]
    exact readout_contract hf.lip n traps hts _ hone x y

/-- A direction in double precision. -/
def direction64 (fill : ℕ → B64 → B64) (dwell : B64) (groups : List (Group B64)) (i : Bool) (offset : ℕ) : Direction B64 :=
  ⟨⟨[B64.one], fill⟩, .standard [dwell] true true true i, groups, 0, offset⟩

end Fp

open Fp B64 in
set_option maxHeartbeats 1000000 in
/-- **C93**: `add_cti` in double precision against `add_cti` in real numbers, both directions. -/
theorem C93_add_cti {sum : List B64 → B64} [AnyOrder sum] {cp cs : Scale} {gp gs : ℕ → B64 → B64} {Lp Ls : ℕ → ℝ → ℝ} {lp ls : ℝ} {wp ws : B64} {dp ds : ℝ}
    {Gp Gs : List (Group B64)} {tp ts : List Ref.Traps} (hp : Precise cp (gp 0) (Lp 0) lp wp dp Gp tp)
    (hs : Precise cs (gs 0) (Ls 0) ls ws ds Gs ts) (img : Image B64) (hnr : 0 < img.nr) (hnc : 0 < img.nc) (ip is : Bool)
    (o op os : ℕ) (hTp : img.nr ≤ cp.T) (hTs : img.nc ≤ cs.T) (hbp : img.nr + o ≤ 2 ^ 25) (hbs : img.nc + os ≤ 2 ^ 25)
    {low high low' high' : ℝ} (hlow' : low' = (1 - Ref.totals tp * cp.L) ^ (img.nr + o) * low -
      (img.nr + o : ℕ) * cp.row Gp.length 1)
    (hhigh' : high' = high + (img.nr + o : ℕ) * (Ref.totals tp + cp.row Gp.length 1))
    (hroomp : Room cp Gp.length 1 lp (Ref.totals tp) (img.nr + o) low high)
    (hrooms : Room cs Gs.length 1 ls (Ref.totals ts) (img.nc + os) low' high')
    (himg : ∀ r < img.nr, ∀ q < img.nc, ∃ v : ℚ, Val (img.px r q) v ∧ low ≤ (v : ℝ) ∧ (v : ℝ) ≤ high) :
    ∃ out out', Fp.addCti (B64.arith sum) B64.conv img (some (direction64 gp wp Gp ip op)) o .all (some (direction64 gs ws Gs is os)) .all none =
        .ok (out, some (direction64 gp wp Gp ip op), some (direction64 gs ws Gs is os)) ∧
      Arctic.addCti (realImage img) (some (exactDirection Lp dp tp ip op)) o .all (some (exactDirection Ls ds ts is os)) .all
        none = .ok (out', some (exactDirection Lp dp tp ip op), some (exactDirection Ls ds ts is os)) ∧
      out.nr = img.nr ∧ out.nc = img.nc ∧ (∀ r < img.nr, ∀ q < img.nc, ∃ v : ℚ, Val (out.px r q) v ∧ 0 ≤ v ∧ v ≤ cs.P) ∧
      ∑ r ∈ Finset.range img.nr, ∑ q ∈ Finset.range img.nc, |Fp.rl (out.px r q) - out'.px r q| ≤
        img.nc * cp.readout Gp.length img.nr o (Ref.totals tp) + img.nr * cs.readout Gs.length img.nc os (Ref.totals ts) := by
  obtain ⟨mid, g1, g2, g3, g4⟩ := hp.column (sum := sum) img hnr ip o hTp hbp (some (List.range (img.nr + o))) (Or.inr rfl) hroomp himg
  rw [← hlow', ← hhigh'] at g4
  have e1 : (transpose mid).nr = img.nc := g3
  have e2 : (transpose mid).nc = img.nr := g2
  obtain ⟨out, q1, q2, q3, q4⟩ := hs.column (sum := sum) (transpose mid) (by rw [e1]; exact hnc) is os (by rw [e1]; exact hTs)
    (by rw [e1]; exact hbs) none (Or.inl rfl) (by rw [e1]; exact hrooms)
    (fun r hr q hq => by
      rw [e1] at hr
      rw [e2] at hq
      exact (g4 r hr).1 q hq)
  rw [e1, e2] at q1 q4
  obtain ⟨out', a1, a2, a3, a4⟩ := C53_add_cti (realImage img) hnr hnc Lp Ls dp ds tp ts
    ⟨hp.dw_pos, hp.model, hp.pos, hp.ok⟩ ⟨hs.dw_pos, hs.model, hs.pos, hs.ok⟩ ip is o op os
  refine ⟨transpose out, out', ?_, a1, q3.trans e2, q2.trans e1, fun r hr q hq => ?_, ?_⟩
  · unfold Fp.addCti direction64
    simp only [Window.resolve, bind, Except.bind, Option.getD_none]
    rw [g1]
    simp only
    rw [q1]
  · obtain ⟨v, hv, v1, v2⟩ := (q4 r hr).1 q hq
    have h1 := hs.whole.ok.rel0
    have h2 : (0 : ℝ) ≤ cs.P * Scale.u := by
      have h3 := hs.whole.ok.N0
      have h4 := hs.whole.ok.P0
      exact mul_nonneg (by linarith) Scale.u_pos.le
    have h3 := hrooms.low
    have h4 := hrooms.high
    obtain ⟨f, hf, -⟩ := hs.smooth
    have h5 := hf.pos
    rw [Rat.cast_one, one_mul] at h3 h4
    exact ⟨v, hv, by exact_mod_cast (by linarith : (0 : ℝ) ≤ v), by exact_mod_cast (by linarith : (v : ℝ) ≤ cs.P)⟩
  · have emp : tp.map Ref.Traps.empty = tp := (managers_near (sum := sum) hp.near 0).2
    have ems : ts.map Ref.Traps.empty = ts := (managers_near (sum := sum) hs.near 0).2
    set X : ℕ → ℕ → ℝ := fun q r => Ref.readout (Lp 0) dp tp (Ref.allPasses img.nr o) (fun r => Fp.rl (img.px r q)) r with hX
    have hXlow : ∀ q < img.nc, ∀ r < img.nr, low' ≤ X q r := fun q hq r hr => by
      have := (hp.exact hroomp).1 (fun r => Fp.rl (img.px r q)) (fun r hr => by
        obtain ⟨v, hv, v1, -⟩ := himg r hr q hq
        simp only [rl_val hv]
        exact v1) r hr
      have hrow := mul_nonneg (Nat.cast_nonneg (α := ℝ) (img.nr + o)) (hp.whole.row0 hp.whole.ok.net0)
      rw [hlow']
      linarith
    have hrowb : ∀ r < img.nr, ∑ q ∈ Finset.range img.nc, |Fp.rl ((transpose out).px r q) - out'.px r q| ≤
        cs.readout Gs.length img.nc os (Ref.totals ts) + ∑ q ∈ Finset.range img.nc, |Fp.rl (mid.px r q) - X q r| := by
      intro r hr
      have h1 := (q4 r hr).2
      have h2 := (hs.exact hrooms).2 (fun q => Fp.rl (mid.px r q)) (fun q => X q r)
        (fun q hq => by
          obtain ⟨v, hv, v1, -⟩ := (g4 q hq).1 r hr
          simp only [rl_val hv]
          exact v1)
        (fun q hq => hXlow q hq r hr)
      refine le_trans ?_ (add_le_add h1 h2)
      unfold colDist
      rw [← Finset.sum_add_distrib]
      refine Finset.sum_le_sum fun q hq => ?_
      rw [a4 r hr q (Finset.mem_range.1 hq), emp, ems]
      exact abs_sub_le _ _ _
    refine (Finset.sum_le_sum fun r hr => hrowb r (Finset.mem_range.1 hr)).trans ?_
    rw [Finset.sum_add_distrib, Finset.sum_const, Finset.card_range, nsmul_eq_mul, Finset.sum_comm, add_comm]
    refine add_le_add ?_ le_rfl
    refine (Finset.sum_le_sum fun q hq => (g4 q (Finset.mem_range.1 hq)).2).trans (le_of_eq ?_)
    rw [Finset.sum_const, Finset.card_range, nsmul_eq_mul]

end Arctic
