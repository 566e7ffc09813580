import Verif.Lemmas.RoundShape
import Verif.Lemmas.RefError

/-!
# One transfer in double precision and the same transfer in exact arithmetic
-/

set_option linter.unusedSectionVars false
set_option linter.unusedVariables false

namespace Arctic.Fp

open B64 MeasureTheory

variable {s : ℕ} {sum : List B64 → B64}

/-- Sizes of the numbers in a simulation: at most `T` transfers past a pixel, `S` species in a group and `N` traps in a
pixel, at most `P` electrons in a cloud; the fractions kept and the volumes of clouds are off by at most `κ` and `φ`; the
volume of a cloud grows by at most `L` per electron. -/
structure Scale where
  T : ℕ
  S : ℕ
  N : ℚ
  P : ℚ
  κ : ℝ
  φ : ℝ
  L : ℝ

namespace Scale

noncomputable section

/-- unit of rounding errors -/
def u : ℝ := ((err : ℚ) : ℝ)

/-- of a number of trapped electrons -/
def trap (c : Scale) : ℝ := 3 * c.T * (c.S + 3) * c.N * u

/-- of a fill fraction after release -/
def fr (c : Scale) : ℝ := c.κ + u

/-- of the number of released electrons -/
def rel (c : Scale) : ℝ := 2 * c.trap + c.N * c.fr + c.N * u

/-- of a height -/
def height (c : Scale) : ℝ := (3 * c.T + 8) * u + c.φ + c.L * (c.rel + c.P * u)

/-- of the filling of the traps -/
def gap (c : Scale) : ℝ := c.N * (2 * c.height + c.fr)

/-- of the number of electrons that a cloud gains -/
def net (c : Scale) : ℝ := c.rel + 2 * c.trap + c.gap + c.N * c.fr + 2 * c.N * u

/-- what a cloud needs beyond the number of vacant traps -/
def short (c : Scale) : ℝ := c.rel + c.P * u + 2 * c.trap + c.gap + c.N * c.fr

end

structure Ok (c : Scale) : Prop where
  one_le : 1 ≤ c.N
  le_P : c.N ≤ c.P
  le_big : c.P ≤ big
  κ0 : 0 ≤ c.κ
  φ0 : 0 ≤ c.φ
  L0 : 0 ≤ c.L
  small : 3 * (c.T : ℚ) * (c.S + 3) * err ≤ 1

theorem u_pos : 0 < u := by unfold u; exact_mod_cast err_pos

variable {c : Scale}

theorem Ok.N0 (h : c.Ok) : (1 : ℝ) ≤ c.N := by exact_mod_cast h.one_le

theorem Ok.P0 (h : c.Ok) : (c.N : ℝ) ≤ c.P := by exact_mod_cast h.le_P

theorem Ok.trap0 (h : c.Ok) : 0 ≤ c.trap := by
  have := h.N0
  have := u_pos
  unfold trap
  positivity

theorem Ok.fr0 (h : c.Ok) : 0 ≤ c.fr := add_nonneg h.κ0 u_pos.le

theorem Ok.rel0 (h : c.Ok) : 0 ≤ c.rel := by
  have := h.N0
  have := h.trap0
  have := h.fr0
  have := u_pos
  unfold rel
  positivity

theorem Ok.height0 (h : c.Ok) : 0 ≤ c.height := by
  have := h.N0
  have := h.P0
  have hP : (0 : ℝ) ≤ c.P := by linarith
  have := h.rel0
  have := h.φ0
  have := h.L0
  have := u_pos
  unfold height
  positivity

theorem Ok.gap0 (h : c.Ok) : 0 ≤ c.gap := by
  have := h.N0
  have := h.height0
  have := h.fr0
  unfold gap
  positivity

end Scale

/-- The array after `i` transfers. -/
def Tally (i : ℕ) (w : WM B64 s) : Prop := ∃ m ≤ i, Tidy m w ∧ vsum (w.map Row.vol) + m * err ≤ 1 + 9 * (i * err)

/-- The traps that an array stands for. -/
noncomputable def refOf (dens : Fin s → B64) (keep : ℝ → Fin s → ℝ) (w : WM B64 s) : Ref.Traps :=
  ⟨s, fun j => rl (dens j), keep, fun d j => occ (toReal w) d j⟩

theorem DensOk.real_nonneg {N : ℚ} {dens : Fin s → B64} (h : DensOk N dens) (j : Fin s) : 0 ≤ rl (dens j) := by
  obtain ⟨q, hq, q0⟩ := h.fin j
  rw [rl_val hq]
  exact_mod_cast q0

theorem DensOk.real_total {N : ℚ} {dens : Fin s → B64} (h : DensOk N dens) : ∑ j, rl (dens j) ≤ N := by
  unfold rl
  exact_mod_cast h.total

theorem refOf_reg {N : ℚ} {dens : Fin s → B64} (hd : DensOk N dens) {keep : ℝ → Fin s → ℝ} {dw : ℝ}
    (hk : ∀ j, 0 ≤ keep dw j ∧ keep dw j ≤ 1) {m : ℕ} {w : WM B64 s} (h : Tidy m w) : (refOf dens keep w).Reg dw where
  dens := hd.real_nonneg
  keep := hk
  frac d j := occ_bounds (toReal w) h.realFrac d j
  meas j := occ_measurable (toReal w) j

/-- The number of trapped electrons. -/
theorem trapped_filled {c : Scale} (hc : c.Ok) (hs : s ≤ c.S) {dens : Fin s → B64} (hd : DensOk c.N dens)
    (keep : ℝ → Fin s → ℝ) {i m : ℕ} {w : WM B64 s} (hi : i ≤ c.T) (hm : m ≤ i) (h : Tidy m w)
    (hv : vsum (w.map Row.vol) + m * err ≤ 1 + 9 * (i * err)) :
    ∃ q, Val (cyNTrapped D w dens) q ∧ |(q : ℝ) - (refOf dens keep w).filled| ≤ c.trap ∧ 0 ≤ q ∧ q ≤ 3 * c.N ∧ (m = 0 → q = 0) := by
  have he := err_pos
  have hN := hc.one_le
  have hTi : (i : ℚ) * err ≤ c.T * err := mul_le_mul_of_nonneg_right (by exact_mod_cast hi) he.le
  have hm0 : 0 ≤ (m : ℚ) * err := mul_nonneg (Nat.cast_nonneg _) he.le
  have hT0 : 0 ≤ (c.T : ℚ) * err := mul_nonneg (Nat.cast_nonneg _) he.le
  have hS0 : 0 ≤ (c.T : ℚ) * c.S * err := mul_nonneg (mul_nonneg (Nat.cast_nonneg _) (Nat.cast_nonneg _)) he.le
  have hsm := hc.small
  have hsm' : 3 * ((c.T : ℚ) * c.S * err) + 9 * (c.T * err) ≤ 1 := by linarith
  have hms : ((m * s : ℕ) : ℚ) * err ≤ c.T * c.S * err := by
    refine mul_le_mul_of_nonneg_right ?_ he.le
    exact_mod_cast Nat.mul_le_mul (hm.trans hi) hs
  have hv2 : vsum (w.map Row.vol) ≤ 2 := by linarith
  obtain ⟨q, hq, hqe, q0⟩ := trapped_err hd h hv2 (by linarith)
  have hqe2 : |q - elec dens w| ≤ 3 * (c.T * c.S * c.N * err) := by
    refine hqe.trans ?_
    have := mul_le_mul_of_nonneg_right hms (by linarith : 0 ≤ c.N)
    nlinarith
  have hel := elec_bounds hd w h.vols h.frac
  refine ⟨q, hq, ?_, q0, ?_, ?_⟩
  · have hB : volSum (toReal w) ≤ ((1 + 9 * (c.T * err) : ℚ) : ℝ) := by
      rw [volSum_toReal]
      have : vsum (w.map Row.vol) ≤ 1 + 9 * (c.T * err) := by linarith
      exact_mod_cast this
    have h1 := electrons_near (fun j => rl (dens j)) hd.real_nonneg (toReal w) h.realVol h.realFrac
      (B := ((1 + 9 * (c.T * err) : ℚ) : ℝ)) (by
        have : (1 : ℚ) ≤ 1 + 9 * (c.T * err) := by linarith
        exact_mod_cast this) hB
    rw [electrons_toReal] at h1
    have h2 : (∑ j, rl (dens j)) * (((1 + 9 * (c.T * err) : ℚ) : ℝ) - 1) ≤ c.N * (9 * (c.T * Scale.u)) := by
      have e : (((1 + 9 * (c.T * err) : ℚ) : ℝ) - 1) = 9 * (c.T * Scale.u) := by unfold Scale.u; push_cast; ring
      rw [e]
      refine mul_le_mul_of_nonneg_right hd.real_total ?_
      have := Scale.u_pos
      positivity
    have h3 : |(q : ℝ) - ((elec dens w : ℚ) : ℝ)| ≤ 3 * (c.T * c.S * c.N * Scale.u) := by
      have := ratCast_abs_le hqe2
      unfold Scale.u
      push_cast at this ⊢
      exact this
    have h4 : (refOf dens keep w).filled = ∑ j, rl (dens j) * ∫ d in (0 : ℝ)..1, occ (toReal w) d j := rfl
    rw [h4]
    refine (abs_sub_le _ (((elec dens w : ℚ) : ℝ)) _).trans ?_
    unfold Scale.trap
    have h5 := h1.trans h2
    nlinarith
  · rw [abs_le] at hqe2
    have h1 : elec dens w ≤ c.N * 2 := hel.2.trans (mul_le_mul_of_nonneg_left hv2 (by linarith))
    have h2 : 3 * (c.T * c.S * c.N * err) ≤ c.N := by
      have := mul_le_mul_of_nonneg_right (by linarith : 3 * ((c.T : ℚ) * c.S * err) ≤ 1) (by linarith : 0 ≤ c.N)
      nlinarith
    linarith
  · intro hm0
    subst hm0
    have h0 : vsum (w.map Row.vol) = 0 := by
      refine vsum_zeros fun v hv => ?_
      obtain ⟨r, hr, rfl⟩ := List.mem_map.1 hv
      exact (h.zero r (by simpa using hr)).1
    rw [h0, mul_zero] at hel
    have : elec dens w = 0 := le_antisymm hel.2 hel.1
    rw [this] at hqe
    simp at hqe
    exact hqe

/-- Fillings whose occupancies are close. -/
theorem filled_near {N : ℚ} {dens : Fin s → B64} (hd : DensOk N dens) {x y : ℝ → Fin s → ℝ}
    (ix : ∀ j, IntervalIntegrable (fun d => x d j) volume 0 1) (iy : ∀ j, IntervalIntegrable (fun d => y d j) volume 0 1) {η : ℝ} (h0 : 0 ≤ η)
    (h : ∀ j, ∫ d in (0 : ℝ)..1, |x d j - y d j| ≤ η) :
    |(∑ j, rl (dens j) * ∫ d in (0 : ℝ)..1, x d j) - ∑ j, rl (dens j) * ∫ d in (0 : ℝ)..1, y d j| ≤
        (∑ j, rl (dens j) * ∫ d in (0 : ℝ)..1, |x d j - y d j|) ∧
      (∑ j, rl (dens j) * ∫ d in (0 : ℝ)..1, |x d j - y d j|) ≤ N * η := by
  constructor
  · rw [← Finset.sum_sub_distrib]
    refine (Finset.abs_sum_le_sum_abs _ _).trans (Finset.sum_le_sum fun j _ => ?_)
    rw [← mul_sub, abs_mul, abs_of_nonneg (hd.real_nonneg j), ← intervalIntegral.integral_sub (ix j) (iy j)]
    exact mul_le_mul_of_nonneg_left (intervalIntegral.abs_integral_le_integral_abs zero_le_one) (hd.real_nonneg j)
  · calc (∑ j, rl (dens j) * ∫ d in (0 : ℝ)..1, |x d j - y d j|) ≤ ∑ j, rl (dens j) * η :=
          Finset.sum_le_sum fun j _ => mul_le_mul_of_nonneg_left (h j) (hd.real_nonneg j)
      _ = (∑ j, rl (dens j)) * η := by rw [Finset.sum_mul]
      _ ≤ N * η := mul_le_mul_of_nonneg_right hd.real_total h0

theorem release_below {m : ℕ} {w : WM B64 s} (h : Tidy m w) {p : Fin s → B64} (hp : ∀ j, Unit01 (p j)) (hp1 : ∀ j, (p j).val < 1) :
    ∀ r ∈ mapFills 0 m (fun j x => B64.mul x (p j)) w, ∀ j, (r.fill j).val < 1 := by
  intro r hr j
  obtain ⟨i, hi⟩ := List.mem_iff_getElem?.1 hr
  obtain ⟨q, hq, -, e2, e3⟩ := mapFills_get _ _ _ _ hi
  by_cases him : i < m
  · obtain ⟨x, hx, x0, x1⟩ := h.frac q (List.mem_iff_getElem?.2 ⟨i, hq⟩) j
    obtain ⟨y, hy, y0, y1⟩ := hp j
    have hlt := hp1 j
    rw [hy.val] at hlt
    have hv := val_mul hx hy (round_err16 (q := x * y) (by
      rw [abs_of_nonneg (mul_nonneg x0 y0)]
      have := mul_le_one₀ x1 y0 y1
      linarith)).2
    rw [e3 him, hv.val]
    exact (round_mono_rep hy.rep (mul_le_of_le_one_left y0 x1)).trans_lt hlt
  · rw [← e2 (by omega), ((h.zero q (mem_drop_of hq (by omega))).2 j).val]
    norm_num

/-- The volume of a cloud as a double: right up to `φ`. -/
def FillNear (fill : B64 → B64) (f : ℝ → ℝ) (φ : ℝ) (lo hi : ℝ) : Prop :=
  ∀ (y : B64) (a : ℚ), Val y a → lo ≤ (a : ℝ) → (a : ℝ) ≤ hi →
    ∃ x, Val (fill y) x ∧ 0 < x ∧ x ≤ 1 ∧ |(x : ℝ) - f a| ≤ φ

set_option maxHeartbeats 1000000 in
/-- One transfer in double precision. -/
theorem step_near [NeZero s] [AnyOrder sum] {c : Scale} (hc : c.Ok) (hs : s ≤ c.S) {dens p : Fin s → B64} (hd : DensOk c.N dens)
    (hp : ∀ j, Unit01 (p j)) (hp1 : ∀ j, (p j).val < 1) {keep : ℝ → Fin s → ℝ} {dw : ℝ}
    (hκ : ∀ j, |rl (p j) - keep dw j| ≤ c.κ) (hkeep : ∀ j, 0 ≤ keep dw j ∧ keep dw j ≤ 1) {f : ℝ → ℝ} (hf : LipFill f c.L)
    {fill : B64 → B64} {lo : ℝ} (hfill : FillNear fill f c.φ lo (6 * c.P)) (hlo : 0 < lo) (hNL : c.N * c.L ≤ 1)
    (hshort : c.short ≤ (1 - c.N * c.L) * lo)
    (htall : (3 * c.T + 8) * Scale.u + c.φ < f lo) {i : ℕ} (hi : i < c.T) {w : WM B64 s} (hk : Tally i w) (hlen : i + 1 < w.length)
    {nFree : B64} {n : ℚ} (hn : Val nFree n) (hn0 : lo + c.rel + c.P * Scale.u ≤ (n : ℝ)) (hnP : n ≤ c.P) :
    ∃ net q w', icStep (B64.arith sum) (instantOps (B64.arith sum) dens p) fill nFree w = .ok (net, w') ∧ Val net q ∧ w'.length = w.length ∧
      Tally (i + 1) w' ∧ |(q : ℝ) - ((refOf dens keep w).plain f dw n).1| ≤ c.net ∧
      ((refOf dens keep w).plain f dw n).2.gap (fun d j => occ (toReal w') d j) ≤ c.gap ∧
      ((refOf dens keep w').Reg dw) := by
  obtain ⟨m, hm, h, hv⟩ := hk
  have he := err_pos
  have hu := Scale.u_pos
  have he8 : err ≤ 1 / 8 := by unfold err; norm_num
  have hN := hc.one_le
  have hNr := hc.N0
  have hPr := hc.P0
  have hP := hc.le_P
  have hNbig : c.N ≤ big := hP.trans hc.le_big
  have htrap := hc.trap0
  have hfr := hc.fr0
  have hrel0 := hc.rel0
  have hgap0 := hc.gap0
  have hheight0 := hc.height0
  have hTi : (i : ℚ) * err + err ≤ c.T * err := by
    have : ((i + 1 : ℕ) : ℚ) * err ≤ c.T * err := mul_le_mul_of_nonneg_right (by exact_mod_cast hi) he.le
    push_cast at this; linarith
  have hi0 : 0 ≤ (i : ℚ) * err := mul_nonneg (Nat.cast_nonneg _) he.le
  have hmi : (m : ℚ) * err ≤ i * err := mul_le_mul_of_nonneg_right (by exact_mod_cast hm) he.le
  have hS0 : 0 ≤ (c.T : ℚ) * c.S * err := mul_nonneg (mul_nonneg (Nat.cast_nonneg _) (Nat.cast_nonneg _)) he.le
  have hsm := hc.small
  have hT9 : 9 * ((c.T : ℚ) * err) ≤ 1 := by linarith
  -- release
  set wr := mapFills 0 m (fun j x => B64.mul x (p j)) w with hwr
  obtain ⟨hr, hrocc⟩ := tidy_release h hp
  rw [← hwr] at hr hrocc
  have hrl : wr.length = w.length := mapFills_length _ _ _ _
  have hrv : wr.map Row.vol = w.map Row.vol := mapFills_vols _ _ _ _
  have hrlt := release_below h hp hp1
  rw [← hwr] at hrlt
  have hocc := hrocc (keep dw) c.κ hκ
  set t := refOf dens keep w with ht
  have hreg : t.Reg dw := refOf_reg hd hkeep h
  have hregr : (refOf dens keep wr).Reg dw := refOf_reg hd hkeep hr
  obtain ⟨q0, hq0, hq0e, hq00, hq0N, -⟩ := trapped_filled hc hs hd keep hi.le hm h hv
  obtain ⟨q1, hq1, hq1e, hq10, hq1N, hq1z⟩ := trapped_filled hc hs hd keep hi.le hm hr (by rw [hrv]; exact hv)
  rw [← ht] at hq0e
  have hrelN : |q0 - q1| ≤ 16 * c.N := by rw [abs_le]; constructor <;> linarith
  obtain ⟨r1, r2⟩ := round_scale hN hNbig hrelN
  have hrv1 : Val (D.sub (cyNTrapped D w dens) (cyNTrapped D wr dens)) (B64.round (q0 - q1)) := val_sub hq0 hq1 r2
  set rq := B64.round (q0 - q1) with hrq
  have iocc : ∀ {m : ℕ} {w : WM B64 s}, Tidy m w → ∀ j, IntervalIntegrable (fun d => occ (toReal w) d j) volume 0 1 :=
    fun h j => occ_integrable (toReal _) h.realFrac j 0 1
  have ikeep : ∀ j, IntervalIntegrable (fun d => occ (toReal w) d j * keep dw j) volume 0 1 := fun j => (iocc h j).mul_const _
  have hfilr : |(refOf dens keep wr).filled - (t.filled - t.outflow dw)| ≤ c.N * c.fr := by
    have e : t.filled - t.outflow dw = ∑ j, rl (dens j) * ∫ d in (0 : ℝ)..1, occ (toReal w) d j * keep dw j := by
      unfold Ref.Traps.outflow
      rw [sub_sub_cancel]
      rfl
    rw [e]
    obtain ⟨k1, k2⟩ := filled_near hd (x := fun d j => occ (toReal wr) d j) (y := fun d j => occ (toReal w) d j * keep dw j)
      (iocc hr) ikeep hfr (fun j => by
        have := intervalIntegral.integral_mono_on (a := 0) (b := 1) (f := fun d => |occ (toReal wr) d j - occ (toReal w) d j * keep dw j|)
          (g := fun _ => c.fr) (μ := volume) zero_le_one (((iocc hr j).sub (ikeep j)).abs) intervalIntegrable_const (fun d _ => hocc d j)
        simpa using this)
    exact k1.trans k2
  have hre : |(rq : ℝ) - t.outflow dw| ≤ c.rel := by
    have k1 := ratCast_abs_le r1
    push_cast at k1
    change |(rq : ℝ) - ((q0 : ℝ) - q1)| ≤ c.N * Scale.u at k1
    unfold Scale.rel
    rw [abs_le] at hq0e hq1e hfilr k1 ⊢
    constructor <;> linarith
  -- the cloud
  have hrq3 : |rq| ≤ 4 * c.N := by
    have hNe : c.N * err ≤ c.N := mul_le_of_le_one_right (by linarith) (by linarith)
    rw [abs_le] at r1 ⊢
    constructor <;> linarith
  have hn0' : (0 : ℝ) ≤ n := by
    have : (0 : ℝ) ≤ c.P * Scale.u := mul_nonneg (by linarith) hu.le
    linarith
  have hnq0 : 0 ≤ n := by exact_mod_cast hn0'
  obtain ⟨a1, a2⟩ := round_scale (q := n + rq) (hN.trans hP) hc.le_big (by
    rw [abs_le] at hrq3 ⊢
    constructor <;> linarith)
  have haV : Val (D.add nFree (D.sub (cyNTrapped D w dens) (cyNTrapped D wr dens))) (B64.round (n + rq)) := val_add hn hrv1 a2
  set a := B64.round (n + rq) with ha
  set nF := D.add nFree (D.sub (cyNTrapped D w dens) (cyNTrapped D wr dens)) with hnF
  have hout0 := hreg.outflow_nonneg
  have hae : |(a : ℝ) - (n + t.outflow dw)| ≤ c.rel + c.P * Scale.u := by
    have k1 := ratCast_abs_le a1
    push_cast at k1
    change |(a : ℝ) - ((n : ℝ) + rq)| ≤ c.P * Scale.u at k1
    rw [abs_le] at hre k1 ⊢
    constructor <;> linarith
  have halo : lo ≤ (a : ℝ) := by rw [abs_le] at hae; linarith
  have ha0 : 0 < a := by
    have : (0 : ℝ) < a := by linarith
    exact_mod_cast this
  have haP : (a : ℝ) ≤ 6 * c.P := by
    have : a ≤ 6 * c.P := by
      have hPe : c.P * err ≤ c.P * (1 / 8) := mul_le_mul_of_nonneg_left he8 (by linarith)
      rw [abs_le] at a1 hrq3
      linarith
    exact_mod_cast this
  obtain ⟨x, hx, x0, x1, hxe⟩ := hfill nF a haV halo haP
  have hmT : (((3 * m + 8 : ℕ) * err : ℚ) : ℝ) ≤ (3 * c.T + 8) * Scale.u := by
    unfold Scale.u
    push_cast
    refine mul_le_mul_of_nonneg_right ?_ (by exact_mod_cast he.le)
    have : m ≤ c.T := by omega
    have : (m : ℝ) ≤ c.T := by exact_mod_cast this
    linarith
  have hxm : ((3 * m + 8 : ℕ) : ℚ) * err < x := by
    have h1 := hf.mono halo
    have : (((3 * m + 8 : ℕ) * err : ℚ) : ℝ) < x := by rw [abs_le] at hxe; linarith
    exact_mod_cast this
  -- capture
  obtain ⟨w', hsh, hcap⟩ := capture_shape (sum := sum) (p := p) (dens := dens) (fill := fill) (nFree := nF) (B := 1 + 9 * (i * err)) hr hrlt
    (by rw [hrl]; omega) (by rw [hrv]; exact hv) (by linarith) (by linarith) (by push_cast; linarith) hx hxm x1 haV ha0
  obtain ⟨m', hm'1, hm', htd', hv'⟩ := hsh.tidy
  have hv'' : vsum (w'.map Row.vol) + m' * err ≤ 1 + 9 * ((i + 1 : ℕ) * err) := by push_cast; linarith
  have hregw : (refOf dens keep w').Reg dw := refOf_reg hd hkeep htd'
  obtain ⟨q2, hq2, hq2e, hq20, hq2N, -⟩ := trapped_filled hc hs hd keep (i := i + 1) (by omega) (by omega : m' ≤ i + 1) htd' hv''
  set F := f (n + t.outflow dw) with hF
  have hxF : |(x : ℝ) - F| ≤ c.φ + c.L * (c.rel + c.P * Scale.u) := by
    refine (abs_sub_le _ (f a) _).trans (add_le_add hxe ?_)
    exact (hf.abs_sub _ _).trans (mul_le_mul_of_nonneg_left hae hc.L0)
  have hδ2 : 0 ≤ c.φ + c.L * (c.rel + c.P * Scale.u) := (abs_nonneg _).trans hxF
  have anw := fun j => occ_antitone h.realFrac h.sinking j
  have hint : ∀ j, ∫ d in (0 : ℝ)..1, |raised F (fun d => occ (toReal w) d j * keep dw j) d - occ (toReal w') d j| ≤
      2 * c.height + c.fr := by
    intro j
    have gan : Antitone fun d => occ (toReal w) d j * keep dw j := fun x y hxy =>
      mul_le_mul_of_nonneg_right (anw j hxy) (hkeep j).1
    have g1 : ∀ d, occ (toReal w) d j * keep dw j ≤ 1 := fun d => (hreg.released d j).2
    have g0 : ∀ d, 0 ≤ occ (toReal w) d j * keep dw j := fun d => (hreg.released d j).1
    have hm8 : (0 : ℝ) ≤ (((3 * m + 8 : ℕ) * err : ℚ) : ℝ) := by
      exact_mod_cast mul_nonneg (Nat.cast_nonneg _) he.le
    have hl := (hsh.levy j).raise (F := F) (δ' := c.φ + c.L * (c.rel + c.P * Scale.u)) (η := c.fr)
      (g' := fun d => occ (toReal w) d j * keep dw j) hxF hδ2 hfr gan g1 (fun d => (hregr.frac d j).2)
      (fun d _ => hocc d j) (by exact_mod_cast x0.le) hm8
    refine (levy_integral (raised_antitone gan g1) (fun d => (raised_bounds g0 g1 d).1) (fun d => (raised_bounds g0 g1 d).2)
      (iocc htd' j) (by linarith) hl).trans ?_
    unfold Scale.height
    linarith
  have iF : ∀ j, IntervalIntegrable (fun d => raised F (fun d => occ (toReal w) d j * keep dw j) d) volume 0 1 := fun j =>
    integrable_bdd 1 ((hreg.plain f n).meas j) (fun d => by
      have := (hreg.plain f n).frac d j
      rw [abs_of_nonneg]
      · exact this.2
      · exact this.1) _ _
  obtain ⟨k1, k2⟩ := filled_near hd (x := fun d j => raised F (fun d => occ (toReal w) d j * keep dw j) d)
    (y := fun d j => occ (toReal w') d j) iF (iocc htd') (by linarith) hint
  have hgap : (t.plain f dw n).2.gap (fun d j => occ (toReal w') d j) ≤ c.gap := k2
  have hfil : |(t.plain f dw n).2.filled - (refOf dens keep w').filled| ≤ c.gap := k1.trans k2
  have hpf := hreg.plain_filled hf (n : ℝ)
  have hin := hreg.inflow_le hf hn0'
  -- no shortage
  have htot : t.total * c.L * (n + t.outflow dw) ≤ c.N * c.L * (a + (c.rel + c.P * Scale.u)) := by
    have h1 : t.total ≤ c.N := hd.real_total
    have h2 : t.total * c.L ≤ c.N * c.L := mul_le_mul_of_nonneg_right h1 hc.L0
    have h3 : (n : ℝ) + t.outflow dw ≤ a + (c.rel + c.P * Scale.u) := by rw [abs_le] at hae; linarith
    exact mul_le_mul h2 h3 (by linarith) (mul_nonneg (by linarith) hc.L0)
  have hPu : (0 : ℝ) ≤ c.P * Scale.u := mul_nonneg (by linarith) hu.le
  have hle : q2 - q1 ≤ a := by
    have : (q2 : ℝ) - q1 ≤ a := by
      have e1 : (q2 : ℝ) - q1 ≤ t.inflow f dw n + 2 * c.trap + c.gap + c.N * c.fr := by
        rw [hpf] at hfil
        rw [abs_le] at hq1e hq2e hfil hfilr
        linarith
      have e2 : c.N * c.L * (c.rel + c.P * Scale.u) ≤ 1 * (c.rel + c.P * Scale.u) := mul_le_mul_of_nonneg_right hNL (by linarith)
      have e3 : (1 - c.N * c.L) * lo ≤ (1 - c.N * c.L) * a := mul_le_mul_of_nonneg_left halo (by linarith)
      unfold Scale.short at hshort
      nlinarith
    exact_mod_cast this
  have hq12 : |q2 - q1| ≤ 16 * c.N := by rw [abs_le]; constructor <;> linarith
  obtain ⟨cap, cq, hcapE, hcv, hce⟩ := hcap c.N q1 q2 hN hNbig hq1 hq2 hq20 hq1z hle hq12
  have hNe : c.N * err ≤ c.N := mul_le_of_le_one_right (by linarith) (by linarith)
  obtain ⟨z1, z2⟩ := round_scale (q := rq - cq) hN hNbig (by
    rw [abs_le] at hrq3 hce ⊢
    constructor <;> linarith)
  have hnetV := val_sub hrv1 hcv z2
  refine ⟨_, _, w', ?_, hnetV, hsh.len.trans hrl, ⟨m', by omega, htd', hv''⟩, ?_, hgap, hregw⟩
  · unfold icStep icRelease
    simp only
    rw [show maxWatermarkIndex (B64.arith sum) w = (m : ℤ) - 1 from h.formed.maxIndex (by omega), show ((m : ℤ) - 1 + 1).toNat = m by omega]
    change (icCapture (B64.arith sum) (instantOps (B64.arith sum) dens p) fill nF wr).bind _ = _
    rw [hcapE]
    rfl
  · have e1 := ratCast_abs_le z1
    have e2 := ratCast_abs_le hce
    push_cast at e1 e2
    change |((B64.round (rq - cq) : ℚ) : ℝ) - ((rq : ℝ) - cq)| ≤ c.N * Scale.u at e1
    change |(cq : ℝ) - ((q2 : ℝ) - q1)| ≤ c.N * Scale.u at e2
    rw [Ref.Traps.plain_fst]
    rw [hpf] at hfil
    unfold Scale.net
    rw [abs_le] at e1 e2 hre hq1e hq2e hfil hfilr ⊢
    constructor <;> linarith

end Arctic.Fp
