import Verif.Lemmas.RoundPass

/-!
# Whole columns in double precision
-/

set_option linter.unusedSectionVars false
set_option linter.unusedVariables false

namespace Arctic
namespace Fp

open B64 MeasureTheory

variable {sum : List B64 → B64}

/-! ### traps without electrons -/

theorem occ_blank {s : ℕ} (w : WM B64 s) (h : ∀ r ∈ w, r = zeroRow D s) (d : ℝ) (j : Fin s) : occ (toReal w) d j = 0 := by
  induction w generalizing d with
  | nil => rfl
  | cons r w ih =>
    rw [toReal_cons, occ, h r List.mem_cons_self]
    have e : (realRow (zeroRow D s)).fill j = 0 := by
      change rl B64.zero = 0
      rw [rl_val val_zero]; norm_num
    rw [e, ih fun r hr => h r (List.mem_cons_of_mem _ hr)]
    simp

theorem tally_blank {s : ℕ} (w : WM B64 s) (h : ∀ r ∈ w, r = zeroRow D s) : Tally 0 w := by
  have hv : vsum (w.map Row.vol) = 0 := by
    clear * - h
    induction w with
    | nil => rfl
    | cons r w ih =>
      have e : vsum ((r :: w).map Row.vol) = r.vol.val + vsum (w.map Row.vol) := by simp [vsum]
      rw [e, ih fun r hr => h r (List.mem_cons_of_mem _ hr), h r List.mem_cons_self]
      change B64.zero.val + 0 = 0
      rw [val_zero.val, add_zero]
  refine ⟨0, le_rfl, ⟨Nat.zero_le _, by simp, ?_, ?_, ?_⟩, ?_⟩
  · intro r hr
    rw [List.drop_zero] at hr
    rw [h r hr]
    exact ⟨val_zero, fun _ => val_zero⟩
  · intro r hr j
    rw [h r hr]
    exact ⟨0, val_zero, le_rfl, zero_le_one⟩
  · refine List.pairwise_iff_forall_sublist.2 fun {a b} hab j => ?_
    have ha : a ∈ w := hab.subset List.mem_cons_self
    have hb : b ∈ w := hab.subset (List.mem_cons_of_mem _ List.mem_cons_self)
    rw [h a ha, h b hb]
  · rw [hv]; norm_num

theorem MgrNear.blank {c : Scale} {dwell : B64} {dw : ℝ} {len i : ℕ} {m : Mgr B64} {t : Ref.Traps}
    (h : MgrNear c dwell dw len i m t) : MgrNear c dwell dw len 0 (empty (B64.arith sum) m) t.empty := by
  obtain ⟨h1, h2, ⟨h3, h4⟩, p, keep, h5, h6, h7⟩ := h
  have hz : ∀ r ∈ m.wm.map fun _ => zeroRow (B64.arith sum) m.s, r = zeroRow (B64.arith sum) m.s := fun r hr => by
    obtain ⟨_, -, rfl⟩ := List.mem_map.1 hr
    rfl
  refine ⟨h1, h2, ⟨tally_blank _ hz, by rw [empty, List.length_map]; exact h4⟩, p, keep, h5, ?_, h7⟩
  rw [h6]
  unfold refOf Ref.Traps.empty
  simp only [empty]
  congr 1
  funext d j
  exact (occ_blank _ hz d j).symm

theorem blank_all {c : Scale} {dwell : B64} {dw : ℝ} {len i : ℕ} {ms : List (Mgr B64)} {ts : List Ref.Traps}
    (h : List.Forall₂ (MgrNear c dwell dw len i) ms ts) :
    List.Forall₂ (MgrNear c dwell dw len 0) (ms.map (empty (B64.arith sum))) (ts.map Ref.Traps.empty) := by
  induction h with
  | nil => exact .nil
  | cons hm hms ih => exact .cons hm.blank ih

/-- The managers between passes: they can be reset to the empty traps `traps`. -/
def AtmNear (c : Scale) (dwell : B64) (dw : ℝ) (len G : ℕ) (traps : List Ref.Traps) (a : ATM B64) : Prop :=
  (∃ ms ts i, a.data = [ms] ∧ ms.length = G ∧ List.Forall₂ (MgrNear c dwell dw len i) ms ts ∧
    ts.map Ref.Traps.empty = traps) ∧
  (a.saved = none ∨ ∃ ms, a.saved = some [ms] ∧ ms.length = G ∧ List.Forall₂ (MgrNear c dwell dw len 0) ms traps)

theorem AtmNear.restored {c : Scale} {dwell : B64} {dw : ℝ} {len G : ℕ} {traps : List Ref.Traps} {a : ATM B64}
    (h : AtmNear c dwell dw len G traps a) : ∃ ms, (restore (B64.arith sum) a).data = [ms] ∧ ms.length = G ∧
      List.Forall₂ (MgrNear c dwell dw len 0) ms traps ∧ (restore (B64.arith sum) a).saved = a.saved := by
  obtain ⟨⟨ms, ts, i, h1, h2, h3, h4⟩, h5⟩ := h
  rcases h5 with h5 | ⟨ms0, h5, h6, h7⟩
  · refine ⟨ms.map (empty (B64.arith sum)), ?_, by simpa using h2, ?_, ?_⟩
    · unfold restore emptyAll
      simp only [h5, h1, List.map_cons, List.map_nil]
    · rw [← h4]; exact blank_all h3
    · unfold restore emptyAll
      simp only [h5]
  · refine ⟨ms0, ?_, h6, h7, ?_⟩
    · unfold restore
      simp only [h5]
    · unfold restore
      simp only [h5]

theorem AtmNear.saved {c : Scale} {dwell : B64} {dw : ℝ} {len G : ℕ} {traps : List Ref.Traps} {a : ATM B64}
    (h : AtmNear c dwell dw len G traps a) : AtmNear c dwell dw len G traps (save (B64.arith sum) (emptyAll (B64.arith sum) a)) := by
  obtain ⟨⟨ms, ts, i, h1, h2, h3, h4⟩, h5⟩ := h
  have h6 := blank_all (sum := sum) h3
  have e : (ts.map Ref.Traps.empty).map Ref.Traps.empty = traps := by rw [List.map_map, ← h4]; rfl
  have hd : (emptyAll (B64.arith sum) a).data = [ms.map (empty (B64.arith sum))] := by unfold emptyAll; simp only [h1, List.map_cons, List.map_nil]
  refine ⟨⟨ms.map (empty (B64.arith sum)), ts.map Ref.Traps.empty, 0, ?_, by simpa using h2, h6, e⟩, Or.inr ⟨ms.map (empty (B64.arith sum)), ?_, by simpa using h2, ?_⟩⟩
  · unfold save; exact hd
  · unfold save; simp only [hd]
  · rw [← h4]; exact h6

/-! ### passes -/

/-- of the sum over the pixels of a column after one pass with up to `n` rows -/
noncomputable def Scale.pass (c : Scale) (G : ℕ) (M : ℚ) (n : ℕ) (l : ℝ) : ℝ :=
  n * (c.row G M + M * (G * c.gap)) / (1 - 2 * l)

theorem Whole.row0 {c : Scale} {G : ℕ} {M : ℚ} (h : Whole c G M) (hnet : 0 ≤ c.net) : 0 ≤ c.row G M := by
  have := h.ok.N0
  have := h.ok.P0
  have hu := Scale.u_pos
  have hM : (1 : ℝ) ≤ M := by exact_mod_cast h.one
  have h1 : (0 : ℝ) ≤ c.P * Scale.u := mul_nonneg (by linarith) hu.le
  have h2 : 0 ≤ c.gain G := mul_nonneg (Nat.cast_nonneg _) (by linarith)
  have h3 : (0 : ℝ) ≤ M * c.P * Scale.u := mul_nonneg (mul_nonneg (by linarith) (by linarith)) hu.le
  unfold Scale.row
  have := mul_nonneg (by linarith : (0 : ℝ) ≤ M) h2
  linarith

/-- What a column must satisfy so that `K` more passes stay within the range of `FillSet`. -/
structure Room (c : Scale) (G : ℕ) (M : ℚ) (lo Λ : ℝ) (K : ℕ) (low high : ℝ) : Prop where
  low0 : 0 ≤ low
  low : lo + c.rel + c.P * Scale.u + K * c.row G M ≤ (1 - M * (Λ * c.L)) ^ K * low
  high : high + K * (M * Λ + c.row G M) ≤ c.P

set_option maxHeartbeats 1000000 in
theorem passes_near [AnyOrder sum] {c : Scale} {M : ℚ} {G : ℕ} (hW : Whole c G M) (hnet : 0 ≤ c.net) {fill : ℕ → B64 → B64} {f : ℝ → ℝ} {lo : ℝ}
    (hf : FillSet c (fill 0) f lo) {cfg : ClockCfg B64} {dwell : B64} (h1 : OnePhase64 cfg dwell) {dw : ℝ}
    {len R col n : ℕ} {Q : ℝ} (hQ1 : 1 ≤ Q) {traps : List Ref.Traps} (hts : Ref.Few dw c.L traps)
    (hML : M * (Ref.totals traps * c.L) ≤ 1) (hl1 : 2 * (Ref.totals traps * c.L) < 1) (hnT : n ≤ c.T) (hnlen : n < len)
    (todo : ℕ → List (ℕ × ℝ)) (ks : List ℕ) :
    (∀ k ∈ ks, List.Forall₂ (RowTodo cfg k) (monitoredRows cfg k) (todo k)) → GoodPasses R M (ks.map todo) →
    (∀ k ∈ ks, (todo k).length ≤ n) →
    (∀ ks', ks' <:+ ks → ∀ x y : ℕ → ℝ, (∀ r < R, 0 ≤ x r) → (∀ r < R, 0 ≤ y r) →
      colDist R (Ref.readout f dw traps (ks'.map todo) x) (Ref.readout f dw traps (ks'.map todo) y) ≤ Q * colDist R x y) →
    ∀ (img : Image B64) (a : ATM B64) (y : ℕ → ℝ) (low high : ℝ), R ≤ img.nr → col < img.nc →
      AtmNear c dwell dw len G traps a → Column img col R y → (∀ r < R, low ≤ y r ∧ y r ≤ high) →
      Room c G M lo (Ref.totals traps) ks.length low high →
      ∃ img' a' y', ks.foldlM (expressBody (B64.arith sum) (atmSys (B64.arith sum) fill) cfg col) (img, a) = .ok (img', a') ∧
        img'.nr = img.nr ∧ img'.nc = img.nc ∧ (∀ r q, q ≠ col → img'.px r q = img.px r q) ∧ Column img' col R y' ∧
        AtmNear c dwell dw len G traps a' ∧
        (∀ r < R, (1 - M * (Ref.totals traps * c.L)) ^ ks.length * low - ks.length * c.row G M ≤ y' r ∧
          y' r ≤ high + ks.length * (M * Ref.totals traps + c.row G M)) ∧
        colDist R (Ref.readout f dw traps (ks.map todo) y) y' ≤
          ks.length * (Q * c.pass G M n (Ref.totals traps * c.L)) := by
  have hMr : (1 : ℝ) ≤ M := by exact_mod_cast hW.one
  have hM0 : (0 : ℝ) ≤ M := by linarith
  have hrow := hW.row0 hnet
  have hlam : 0 ≤ Ref.totals traps * c.L := mul_nonneg (Ref.totals_nonneg hts.reg) hts.slope
  have hlt : (0 : ℝ) < 1 - 2 * (Ref.totals traps * c.L) := by linarith
  have hlo0 : 0 < lo + c.rel + c.P * Scale.u := by
    have h2 := hW.ok.rel0
    have h3 := hf.pos
    have h4 : (0 : ℝ) ≤ c.P * Scale.u := mul_nonneg (by
      have := hW.ok.N0
      have := hW.ok.P0
      linarith) Scale.u_pos.le
    linarith
  set b := 1 - M * (Ref.totals traps * c.L) with hb
  have hb0 : 0 ≤ b := by linarith
  have hb1 : b ≤ 1 := by have := mul_nonneg hM0 hlam; linarith
  induction ks with
  | nil =>
    intro _ _ _ _ img a y low high _ _ ha hy hyb _
    exact ⟨img, a, y, rfl, rfl, rfl, fun _ _ _ => rfl, hy, ha, fun r hr => by simpa using hyb r hr,
      by simp [Ref.readout, colDist]⟩
  | cons k ks ih =>
    intro htodo hgood hlen hQ img a y low high hR hcol ha hy hyb hroom
    have hroom1 := hroom.low
    have hroom2 := hroom.high
    rw [List.length_cons, pow_succ] at hroom1
    rw [List.length_cons] at hroom2
    push_cast at hroom1 hroom2
    have hK0 : (0 : ℝ) ≤ ks.length := Nat.cast_nonneg _
    have hpow1 : b ^ ks.length ≤ 1 := pow_le_one₀ hb0 hb1
    have hpow0 : 0 ≤ b ^ ks.length := pow_nonneg hb0 _
    have hΛ0 := Ref.totals_nonneg hts.reg
    have hlow : lo + c.rel + c.P * Scale.u ≤ low := by
      have e1 : b ^ ks.length * b * low ≤ low := by
        have : b ^ ks.length * b ≤ 1 := mul_le_one₀ hpow1 hb0 hb1
        have := mul_le_mul_of_nonneg_right this hroom.low0
        linarith
      have := mul_nonneg (by linarith : (0 : ℝ) ≤ ks.length + 1) hrow
      linarith
    have hhigh : high ≤ c.P := by
      have := mul_nonneg (by linarith : (0 : ℝ) ≤ ks.length + 1) (add_nonneg (mul_nonneg hM0 hΛ0) hrow)
      linarith
    obtain ⟨ms, d1, d2, d3, d4⟩ := ha.restored
    have hkl : (todo k).length ≤ n := hlen k List.mem_cons_self
    have hml : (monitoredRows cfg k).length = (todo k).length := (htodo k List.mem_cons_self).length_eq
    have hnd := hgood.nodup (todo k) (by simp)
    have hm := hgood.mult (todo k) (by simp)
    have hy0 : ∀ r < R, 0 ≤ y r := fun r hr => by linarith [(hyb r hr).1]
    obtain ⟨img1, a1, y1, ms1, ts1, g1, g2, g3, g4, g5, g6, g7, g8, g9, g10, g11, g12, g13⟩ := rows_near (sum := sum) hW hf h1
      (dw := dw) (len := len) (R := R) (col := col)
      (htodo k List.mem_cons_self) img (restore (B64.arith sum) a) 0 y y ms traps traps 0 d2 hR hcol (by omega) (by omega) d1 d3 hts
      (Ref.Twins.refl hts.reg) hnd hm hML hl1.le hy0 hy (fun p hp => by
        have := hyb p.1 (hm p hp).1
        exact ⟨by linarith, by linarith⟩)
    have hempty : traps.map Ref.Traps.empty = traps := by
      obtain ⟨⟨_, ts0, _, -, -, -, h4⟩, -⟩ := ha
      rw [← h4, List.map_map]; rfl
    have ha1 : AtmNear c dwell dw len G traps a1 := by
      refine ⟨⟨ms1, ts1, _, g6, g8, g9, by rw [g10, hempty]⟩, ?_⟩
      rw [g7, d4]
      exact ha.2
    -- the pass
    have hpass : colDist R (Ref.pass f dw traps y (todo k)) y1 ≤ c.pass G M n (Ref.totals traps * c.L) := by
      have e : colDist R (Ref.pass f dw traps y (todo k)) y1 =
          ∑ r ∈ Finset.range R, |(((todo k).foldl (Ref.row f dw) (y, traps)).1 r - y r) - (y1 r - y r)| := by
        unfold colDist Ref.pass
        refine Finset.sum_congr rfl fun r _ => ?_
        congr 1; ring
      rw [e]
      unfold Scale.pass
      rw [le_div_iff₀ hlt, mul_comm]
      refine g13.trans ?_
      have z : ((todo k).map fun p => |y p.1 - y p.1|).sum = 0 := by simp
      rw [z, mul_zero, add_zero, mul_zero, zero_add, hml]
      refine mul_le_mul_of_nonneg_right (by exact_mod_cast hkl) ?_
      exact add_nonneg hrow (mul_nonneg hM0 (mul_nonneg (Nat.cast_nonneg _) hW.ok.gap0))
    have hy1 : ∀ r < R, b * low - c.row G M ≤ y1 r ∧ y1 r ≤ high + M * Ref.totals traps + c.row G M := by
      intro r hr
      obtain ⟨z1, z2⟩ := hyb r hr
      have k1 := mul_le_mul_of_nonneg_left z1 hb0
      have k2 := mul_nonneg hM0 hΛ0
      by_cases hmem : r ∈ (todo k).map Prod.fst
      · obtain ⟨w1, w2⟩ := g12 r hmem
        constructor <;> linarith
      · rw [g11 r hmem]
        have k3 := mul_le_mul_of_nonneg_right hb1 hroom.low0
        constructor <;> linarith
    have hroom' : lo + c.rel + c.P * Scale.u + ks.length * c.row G M ≤ b ^ ks.length * (b * low - c.row G M) := by
      have := mul_le_mul_of_nonneg_right hpow1 hrow
      nlinarith
    have hlow1 : 0 ≤ b * low - c.row G M := by
      by_contra hneg
      have h2 := mul_nonpos_of_nonneg_of_nonpos hpow0 (le_of_lt (not_le.1 hneg))
      have h3 := mul_nonneg hK0 hrow
      linarith
    obtain ⟨img', a', y', r1, r2, r3, r4, r5, r6, r8, r7⟩ := ih (fun k hk => htodo k (List.mem_cons_of_mem _ hk))
      ⟨fun t ht => hgood.nodup t (List.mem_cons_of_mem _ ht), fun t ht => hgood.mult t (List.mem_cons_of_mem _ ht)⟩
      (fun k hk => hlen k (List.mem_cons_of_mem _ hk))
      (fun ks' hks => hQ ks' (hks.trans (List.suffix_cons _ _))) img1 a1 y1 (b * low - c.row G M)
      (high + M * Ref.totals traps + c.row G M) (by omega) (by omega) ha1 g5 hy1
      ⟨hlow1, hroom', by linarith⟩
    refine ⟨img', a', y', ?_, r2.trans g2, r3.trans g3, fun r q hq => (r4 r q hq).trans (g4 r q hq), r5, r6,
      ?_, ?_⟩
    · rw [foldlM_cons]
      have : expressBody (B64.arith sum) (atmSys (B64.arith sum) fill) cfg col (img, a) k = .ok (img1, a1) := g1
      rw [this]
      exact r1
    · intro r hr
      obtain ⟨z1, z2⟩ := r8 r hr
      rw [List.length_cons, pow_succ]
      push_cast
      have := mul_le_mul_of_nonneg_right hpow1 hrow
      constructor <;> nlinarith
    · have hpos := (pass_lip hf.lip R M (todo k) y y traps traps 0 hts (Ref.Twins.refl hts.reg) hnd hm hM0 hML hl1.le hy0 hy0).1
      have c1 := hQ ks (List.suffix_cons _ _) (Ref.pass f dw traps y (todo k)) y1 hpos
        (fun r hr => by linarith [(hy1 r hr).1])
      have c2 := mul_le_mul_of_nonneg_left hpass (by linarith : 0 ≤ Q)
      have e : Ref.readout f dw traps ((k :: ks).map todo) y =
          Ref.readout f dw traps (ks.map todo) (Ref.pass f dw traps y (todo k)) := rfl
      rw [e]
      have tri : ∀ A B C : ℕ → ℝ, colDist R A C ≤ colDist R A B + colDist R B C := by
        intro A B C
        unfold colDist
        rw [← Finset.sum_add_distrib]
        exact Finset.sum_le_sum fun r _ => abs_sub_le _ _ _
      have c3 := tri (Ref.readout f dw traps (ks.map todo) (Ref.pass f dw traps y (todo k)))
        (Ref.readout f dw traps (ks.map todo) y1) y'
      push_cast [List.length_cons]
      linarith

/-! ### columns -/

theorem columns_near [AnyOrder sum] {c : Scale} {M : ℚ} {G : ℕ} (hW : Whole c G M) (hnet : 0 ≤ c.net) {fill : ℕ → B64 → B64} {f : ℝ → ℝ} {lo : ℝ}
    (hf : FillSet c (fill 0) f lo) {cfg : ClockCfg B64} {dwell : B64} (h1 : OnePhase64 cfg dwell) {dw : ℝ}
    {len R n : ℕ} {Q : ℝ} (hQ1 : 1 ≤ Q) {traps : List Ref.Traps} (hts : Ref.Few dw c.L traps)
    (hML : M * (Ref.totals traps * c.L) ≤ 1) (hl1 : 2 * (Ref.totals traps * c.L) < 1) (hnT : n ≤ c.T) (hnlen : n < len)
    (todo : ℕ → List (ℕ × ℝ))
    (htodo : ∀ k < cfg.expr.nr, List.Forall₂ (RowTodo cfg k) (monitoredRows cfg k) (todo k))
    (hgood : GoodPasses R M ((List.range cfg.expr.nr).map todo)) (hlen : ∀ k < cfg.expr.nr, (todo k).length ≤ n)
    (hQ : ∀ ks', ks' <:+ List.range cfg.expr.nr → ∀ x y : ℕ → ℝ, (∀ r < R, 0 ≤ x r) → (∀ r < R, 0 ≤ y r) →
      colDist R (Ref.readout f dw traps (ks'.map todo) x) (Ref.readout f dw traps (ks'.map todo) y) ≤ Q * colDist R x y)
    {low high : ℝ} (hroom : Room c G M lo (Ref.totals traps) cfg.expr.nr low high) (Y : ℕ → ℕ → ℝ) (columns : List ℕ) :
    ∀ (img : Image B64) (a : ATM B64), columns.Nodup → R ≤ img.nr → (∀ col ∈ columns, col < img.nc) →
      AtmNear c dwell dw len G traps a → (∀ col ∈ columns, Column img col R (Y col)) →
      (∀ col ∈ columns, ∀ r < R, low ≤ Y col r ∧ Y col r ≤ high) →
      ∃ img' a', clockLoops (B64.arith sum) (atmSys (B64.arith sum) fill) cfg columns (img, a) = .ok (img', a') ∧
        img'.nr = img.nr ∧ img'.nc = img.nc ∧ (∀ r q, q ∉ columns → img'.px r q = img.px r q) ∧
        ∀ col ∈ columns, ∃ y', Column img' col R y' ∧
          (∀ r < R, (1 - M * (Ref.totals traps * c.L)) ^ cfg.expr.nr * low - cfg.expr.nr * c.row G M ≤ y' r ∧
            y' r ≤ high + cfg.expr.nr * (M * Ref.totals traps + c.row G M)) ∧
          colDist R (Ref.readout f dw traps ((List.range cfg.expr.nr).map todo) (Y col)) y' ≤
            cfg.expr.nr * (Q * c.pass G M n (Ref.totals traps * c.L)) := by
  induction columns with
  | nil => intro img a _ _ _ _ _ _; exact ⟨img, a, rfl, rfl, rfl, fun _ _ _ => rfl, by simp⟩
  | cons col cols ih =>
    intro img a hnd hR hc ha hY hb
    obtain ⟨n1, n2⟩ := List.nodup_cons.1 hnd
    obtain ⟨img1, a1, y1, g1, g2, g3, g4, g5, g6, g8, g7⟩ := passes_near (sum := sum) hW hnet hf h1 (dw := dw) (len := len) (R := R)
      (col := col) (n := n) hQ1 hts hML hl1 hnT hnlen todo (List.range cfg.expr.nr)
      (fun k hk => htodo k (List.mem_range.1 hk)) hgood (fun k hk => hlen k (List.mem_range.1 hk)) hQ img a (Y col) low high hR
      (hc col List.mem_cons_self) ha (hY col List.mem_cons_self) (hb col List.mem_cons_self)
      (by rw [List.length_range]; exact hroom)
    have hcb : columnBody (B64.arith sum) (atmSys (B64.arith sum) fill) cfg (img, a) col = .ok (img1, save (B64.arith sum) (emptyAll (B64.arith sum) a1)) := by
      unfold columnBody
      rw [g1]
      simp only [bind, Except.bind, h1.between, if_true]
      rfl
    obtain ⟨img', a', r1, r2, r3, r4, r5⟩ := ih img1 (save (B64.arith sum) (emptyAll (B64.arith sum) a1)) n2 (by omega)
      (fun q hq => by rw [g3]; exact hc q (List.mem_cons_of_mem _ hq)) g6.saved
      (fun q hq r hr => by
        rw [g4 r q (fun h => n1 (h ▸ hq))]
        exact hY q (List.mem_cons_of_mem _ hq) r hr)
      (fun q hq => hb q (List.mem_cons_of_mem _ hq))
    refine ⟨img', a', ?_, r2.trans g2, r3.trans g3, ?_, ?_⟩
    · unfold clockLoops at r1 ⊢
      rw [foldlM_cons, hcb]
      exact r1
    · intro r q hq
      rw [List.mem_cons, not_or] at hq
      rw [r4 r q hq.2, g4 r q hq.1]
    · intro q hq
      rcases List.mem_cons.1 hq with rfl | hq
      · refine ⟨y1, fun r hr => ?_, ?_, ?_⟩
        · rw [r4 r q n1]; exact g5 r hr
        · rw [List.length_range] at g8; exact g8
        · rw [List.length_range] at g7; exact g7
      · exact r5 q hq

end Fp
end Arctic
