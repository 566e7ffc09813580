import Verif.Lemmas.RoundStep
import Verif.Lemmas.RefContract

/-!
# All groups of traps of a pixel in double precision
-/

set_option linter.unusedSectionVars false
set_option linter.unusedVariables false

namespace Arctic

theorem Ref.Twins.trans {dw g g' : ℝ} {ts ts' ts'' : List Ref.Traps} (h : Ref.Twins dw ts ts' g)
    (hr : ∀ t ∈ ts, t.Reg dw) (h' : Ref.Twins dw ts' ts'' g') : ∃ g1 ≤ g + g', Ref.Twins dw ts ts'' g1 := by
  induction h generalizing ts'' g' with
  | nil => cases h'; exact ⟨0, by simp, .nil⟩
  | @cons t o ts ts' g ho hs ih =>
    cases h' with
    | @cons _ p _ ts2 g2 hp hs' =>
      obtain ⟨g1, i1, i2⟩ := ih (fun x hx => hr x (List.mem_cons_of_mem _ hx)) hs'
      have := Ref.Traps.gap_triangle (t := t) (o := o) (p := p) (hr t List.mem_cons_self) ho hp
      exact ⟨t.gap p + g1, by linarith, .cons t p hp i2⟩

theorem Ref.Traps.Reg.plain_abs {dw L : ℝ} {f : ℝ → ℝ} {t : Ref.Traps} (h : t.Reg dw) (hf : LipFill f L) (n : ℝ) :
    |(t.plain f dw n).1| ≤ t.total := by
  have ho := h.outflow_nonneg
  have hi := h.inflow_nonneg hf n
  have hi' : t.inflow f dw n ≤ t.total := by
    refine (h.release.vacant_le (hf.nonneg _)).trans ?_
    exact mul_le_of_le_one_right h.release.total_nonneg (hf.le_one _)
  have ho' : t.outflow dw ≤ t.total := by
    rw [Ref.Traps.outflow_eq]
    unfold Ref.Traps.total
    refine Finset.sum_le_sum fun j _ => ?_
    rw [mul_assoc]
    refine mul_le_of_le_one_right (h.dens j) ?_
    have i1 : ∫ d in (0 : ℝ)..1, t.occ d j ≤ 1 := by
      have := intervalIntegral.integral_mono_on (a := 0) (b := 1) (f := fun d => t.occ d j) (g := fun _ => (1 : ℝ))
        (μ := MeasureTheory.volume) zero_le_one
        (integrable_bdd 1 (h.meas j) (fun d => by rw [abs_of_nonneg (h.frac d j).1]; exact (h.frac d j).2) _ _)
        intervalIntegrable_const (fun d _ => (h.frac d j).2)
      simpa using this
    have i0 : 0 ≤ ∫ d in (0 : ℝ)..1, t.occ d j := intervalIntegral.integral_nonneg zero_le_one fun d _ => (h.frac d j).1
    exact mul_le_one₀ (by linarith [(h.keep j).1]) i0 i1
  rw [Ref.Traps.plain_fst, abs_le]
  constructor <;> linarith

namespace Fp

open B64 MeasureTheory

variable {sum : List B64 → B64}

/-- A manager and the traps it stands for, after `i` transfers. -/
structure MgrNear (c : Scale) (dwell : B64) (dw : ℝ) (len i : ℕ) (m : Mgr B64) (t : Ref.Traps) : Prop where
  species : 0 < m.s ∧ m.s ≤ c.S
  dens : DensOk c.N m.dens
  wm : Tally i m.wm ∧ m.wm.length = len
  kind : ∃ p keep, m.kind = .instant p ∧ t = refOf m.dens keep m.wm ∧ (∀ j, Unit01 (p dwell j)) ∧
    (∀ j, (p dwell j).val < 1) ∧ (∀ j, |rl (p dwell j) - keep dw j| ≤ c.κ) ∧ ∀ j, 0 ≤ keep dw j ∧ keep dw j ≤ 1

theorem MgrNear.reg {c : Scale} {dwell : B64} {dw : ℝ} {len i : ℕ} {m : Mgr B64} {t : Ref.Traps}
    (h : MgrNear c dwell dw len i m t) : t.Reg dw ∧ t.total ≤ c.N := by
  obtain ⟨p, keep, -, rfl, -, -, -, h4⟩ := h.kind
  obtain ⟨⟨k, -, h5, -⟩, -⟩ := h.wm
  exact ⟨refOf_reg h.dens h4 h5, h.dens.real_total⟩

/-- What is assumed of the volume of clouds; `lo` is the smallest number of electrons for which it matters. -/
structure FillSet (c : Scale) (fill : B64 → B64) (f : ℝ → ℝ) (lo : ℝ) : Prop where
  lip : LipFill f c.L
  near : FillNear fill f c.φ lo (6 * c.P)
  pos : 0 < lo
  few : c.N * c.L ≤ 1
  short : c.short ≤ (1 - c.N * c.L) * lo
  tall : (3 * c.T + 8) * Scale.u + c.φ < f lo

theorem mgr_near [AnyOrder sum] {c : Scale} (hc : c.Ok) {dwell : B64} {dw : ℝ} {len i : ℕ} {m : Mgr B64} {t : Ref.Traps}
    (h : MgrNear c dwell dw len i m t) {fill : B64 → B64} {f : ℝ → ℝ} {lo : ℝ} (hf : FillSet c fill f lo)
    (hi : i < c.T) (hlen : i + 1 < len) {nFree : B64} {n : ℚ} (hn : Val nFree n)
    (hn0 : lo + c.rel + c.P * Scale.u ≤ (n : ℝ)) (hnP : n ≤ c.P) :
    ∃ net q m' o, step (B64.arith sum) m nFree dwell fill = .ok (net, m') ∧ Val net q ∧
      |(q : ℝ) - (t.transfer f dw n).1| ≤ c.net ∧ (t.transfer f dw n).2.gap o ≤ c.gap ∧
      ((t.transfer f dw n).2.refill o).Reg dw ∧ MgrNear c dwell dw len (i + 1) m' ((t.transfer f dw n).2.refill o) := by
  obtain ⟨hr, htot⟩ := h.reg
  have e : t.transfer f dw n = t.plain f dw n := hr.transfer_plain hf.lip
    ((mul_le_mul_of_nonneg_right htot hc.L0).trans hf.few) n
  rw [e]
  clear e hr htot
  obtain ⟨hsp, hd, ⟨w1, w2⟩, p, keep, h1, ht, h3, h4, h5, h6⟩ := h
  cases m with | mk s dens kind w =>
  simp only at h1 w1 w2 h3 h4 h5 h6 ht hsp hd
  subst ht
  haveI : NeZero s := ⟨hsp.1.ne'⟩
  obtain ⟨net, q, w', g1, g2, g3, g4, g5, g6, g7⟩ := step_near (sum := sum) hc hsp.2 hd h3 h4 h5 h6 hf.lip hf.near hf.pos hf.few
    hf.short hf.tall hi w1 (by rw [w2]; exact hlen) hn hn0 hnP
  refine ⟨net, q, ⟨s, dens, kind, w'⟩, fun d j => occ (toReal w') d j, ?_, g2, g5, g6, g7, ?_⟩
  · unfold step
    simp only [h1]
    rw [g1]
    rfl
  · exact ⟨hsp, hd, ⟨g4, g3.trans w2⟩, p, keep, h1, rfl, h3, h4, h5, h6⟩

/-- of the number of electrons that a cloud gains from `G` groups -/
noncomputable def Scale.gain (c : Scale) (G : ℕ) : ℝ := G * (c.net + c.P * u)

theorem groups_near [AnyOrder sum] {c : Scale} (hc : c.Ok) {dwell : B64} {dw : ℝ} {len i : ℕ} {fill : B64 → B64} {f : ℝ → ℝ} {lo : ℝ}
    (hf : FillSet c fill f lo) (hnet : c.net ≤ c.N) (hi : i < c.T) (hlen : i + 1 < len) {nFree : B64} {n : ℚ}
    (hn : Val nFree n) (hn0 : lo + c.rel + c.P * Scale.u ≤ (n : ℝ)) (hnP : n ≤ c.P) {ms : List (Mgr B64)}
    {ts : List Ref.Traps} (h : List.Forall₂ (MgrNear c dwell dw len i) ms ts) :
    ∀ (acc : B64) (a : ℚ) (G0 : ℕ), Val acc a → |a| ≤ 3 * (G0 * c.N) → (G0 + ms.length) * c.N ≤ c.P →
      ((G0 + ms.length : ℕ) : ℚ) * err ≤ 1 →
    ∃ tot q ms' ts', groupsStep (B64.arith sum) nFree dwell fill acc ms = .ok (tot, ms') ∧ Val tot q ∧
      |(q : ℝ) - (a + Ref.gain f dw ts n)| ≤ c.gain ms.length ∧
      List.Forall₂ (MgrNear c dwell dw len (i + 1)) ms' ts' ∧
      ∃ g ≤ ms.length * c.gap, Ref.Twins dw (Ref.after f dw ts n) ts' g := by
  induction h with
  | nil =>
    intro acc a G0 ha _ _ _
    exact ⟨acc, a, [], [], rfl, ha, by simp [Ref.gain, Scale.gain], .nil, 0, by simp, .nil⟩
  | @cons m t ms ts hm hms ih =>
    intro acc a G0 ha hab hG hGe
    obtain ⟨hr, htot⟩ := hm.reg
    obtain ⟨net, q, m', o, s1, s2, s3, s4, s5, s6⟩ := mgr_near (sum := sum) hc hm hf hi hlen hn hn0 hnP
    have hN := hc.one_le
    have hu := Scale.u_pos
    have he := err_pos
    have he8 : err ≤ 1 / 8 := by unfold err; norm_num
    have hqb : |q| ≤ 2 * c.N := by
      have e : t.transfer f dw n = t.plain f dw n := hr.transfer_plain hf.lip
        ((mul_le_mul_of_nonneg_right htot hc.L0).trans hf.few) n
      have k := hr.plain_abs hf.lip (n : ℝ)
      rw [e] at s3
      have : |(q : ℝ)| ≤ 2 * c.N := by
        rw [abs_le] at k s3 ⊢
        constructor <;> linarith
      exact_mod_cast this
    have hG1 : (G0 + 1 : ℚ) * c.N ≤ c.P := by
      refine le_trans (mul_le_mul_of_nonneg_right ?_ (by linarith)) hG
      have : (0 : ℚ) ≤ ms.length := Nat.cast_nonneg _
      push_cast [List.length_cons]
      linarith
    obtain ⟨r1, r2⟩ := round_scale (q := a + q) (N := (G0 + 1) * c.N) (by
        have : (0 : ℚ) ≤ G0 * c.N := mul_nonneg (Nat.cast_nonneg _) (by linarith)
        linarith) (hG1.trans hc.le_big) (by
        refine (abs_add_le _ _).trans ?_
        have : (0 : ℚ) ≤ G0 * c.N := mul_nonneg (Nat.cast_nonneg _) (by linarith)
        linarith)
    have hv : Val ((B64.arith sum).add acc net) (B64.round (a + q)) := val_add ha s2 r2
    have hG0 : (0 : ℚ) ≤ G0 * c.N := mul_nonneg (Nat.cast_nonneg _) (by linarith)
    have hs : (G0 + 1) * c.N * err ≤ c.N := by
      have : ((G0 + 1 : ℕ) : ℚ) * err ≤ 1 := le_trans (mul_le_mul_of_nonneg_right (by
        rw [List.length_cons]; exact_mod_cast (by omega : G0 + 1 ≤ G0 + (ms.length + 1))) he.le) hGe
      push_cast at this
      have := mul_le_mul_of_nonneg_right this (by linarith : 0 ≤ c.N)
      linarith
    obtain ⟨tot, z, ms', ts', i1, i2, i3, i4, g, i5, i6⟩ := ih ((B64.arith sum).add acc net) (B64.round (a + q)) (G0 + 1) hv (by
        push_cast
        rw [abs_le] at r1 hab hqb ⊢
        constructor <;> linarith) (by
        push_cast [List.length_cons] at hG ⊢
        linarith) (by rw [List.length_cons] at hGe; rwa [Nat.add_right_comm, Nat.add_assoc])
    refine ⟨tot, z, m' :: ms', (t.transfer f dw n).2.refill o :: ts', ?_, i2, ?_, .cons s6 i4, (t.transfer f dw n).2.gap o + g, ?_, ?_⟩
    · unfold groupsStep
      rw [s1]
      simp only [bind, Except.bind]
      rw [i1]
    · have e : Ref.gain f dw (t :: ts) n = (t.transfer f dw n).1 + Ref.gain f dw ts n := by
        simp [Ref.gain]
      have k1 := ratCast_abs_le r1
      push_cast at k1
      have k2 : ((G0 : ℝ) + 1) * c.N * (err : ℚ) ≤ c.P * Scale.u := by
        have : (((G0 + 1) * c.N : ℚ) : ℝ) ≤ c.P := by exact_mod_cast hG1
        push_cast at this
        exact mul_le_mul_of_nonneg_right this hu.le
      rw [e]
      unfold Scale.gain at i3 ⊢
      push_cast [List.length_cons]
      rw [abs_le] at i3 k1 s3 ⊢
      constructor <;> linarith
    · push_cast [List.length_cons]
      linarith
    · exact .cons _ o s5 i6

end Fp
end Arctic
