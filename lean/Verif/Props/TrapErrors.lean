import Verif.Lemmas.RefError
import Verif.Props.Converge

/-!
# C81 — Errors of the trap parameters
-/

set_option linter.unusedSectionVars false
set_option linter.unusedVariables false

namespace Arctic

/-! ## Specification -/

/-- The density and the release rate of `t` differ from those of `t'` by a fraction `ε` at most. -/
structure Trap.Near (ε : ℝ) (t t' : Trap) : Prop where
  density : |t.density - t'.density| ≤ ε * t'.density
  rate : |1 / t.releaseTimescale - 1 / t'.releaseTimescale| ≤ ε * (1 / t'.releaseTimescale)

/-- The same numbers of groups and species, one close to the other. -/
def NearGroups (ε : ℝ) (gs gs' : List (List Trap)) : Prop := List.Forall₂ (List.Forall₂ (Trap.Near ε)) gs gs'

/-! ## Columns -/

/-- Fractions released in a dwell time. -/
theorem exp_near {ε a b x : ℝ} (h0 : 0 ≤ ε) (hx : 0 ≤ x) (hb : 0 ≤ b) (h : |a - b| ≤ ε * b) (h1 : ε ≤ 1) :
    |Real.exp (-x * a) - Real.exp (-x * b)| ≤ ε * (1 - Real.exp (-x * b)) := by
  obtain ⟨l, u⟩ := abs_le.1 h
  have cv := convexOn_exp
  have q1 : Real.exp (-x * a) ≤ (1 - ε) * Real.exp (-x * b) + ε := by
    have := cv.2 (Set.mem_univ (-x * b)) (Set.mem_univ 0) (sub_nonneg.2 h1) h0 (by ring)
    simp only [smul_eq_mul, mul_zero, add_zero, Real.exp_zero, mul_one] at this
    refine le_trans (Real.exp_le_exp.2 ?_) this
    have : x * ((1 - ε) * b) ≤ x * a := mul_le_mul_of_nonneg_left (by linarith) hx
    nlinarith
  have q2 : (1 + ε) * Real.exp (-x * b) ≤ Real.exp (-x * a) + ε := by
    have hp : 0 < 1 + ε := by linarith
    have := cv.2 (Set.mem_univ (-x * ((1 + ε) * b))) (Set.mem_univ 0) (one_div_nonneg.2 hp.le) (div_nonneg h0 hp.le)
      (by field_simp)
    simp only [smul_eq_mul, mul_zero, add_zero, Real.exp_zero, mul_one] at this
    have e : 1 / (1 + ε) * (-x * ((1 + ε) * b)) = -x * b := by field_simp
    rw [e] at this
    have t := mul_le_mul_of_nonneg_left this hp.le
    have e2 : (1 + ε) * (1 / (1 + ε) * Real.exp (-x * ((1 + ε) * b)) + ε / (1 + ε)) = Real.exp (-x * ((1 + ε) * b)) + ε := by
      field_simp
    rw [e2] at t
    refine t.trans (add_le_add_left (Real.exp_le_exp.2 ?_) _)
    have : x * a ≤ x * ((1 + ε) * b) := mul_le_mul_of_nonneg_left (by linarith) hx
    nlinarith
  rw [abs_le]
  constructor <;> linarith

theorem Ref.ofTraps_of_length (l : List Trap) (s : ℕ) (h : l.length = s) :
    Ref.ofTraps l = ⟨s, fun j => (l[j.1]'(by rw [h]; exact j.2)).density,
      fun x j => Real.exp (-x / (l[j.1]'(by rw [h]; exact j.2)).releaseTimescale), fun _ _ => 0⟩ := by
  subst h
  rfl

theorem Ref.ofTraps_kin {dw ε : ℝ} (hd : 0 < dw) (h0 : 0 ≤ ε) (h1 : ε ≤ 1) {gs gs' : List (List Trap)}
    (h : NearGroups ε gs gs') (hb : ∀ l ∈ gs', ∀ t ∈ l, t.Bulk) :
    Ref.Kin dw ε (gs.map Ref.ofTraps) (gs'.map Ref.ofTraps) 0 := by
  induction h with
  | nil => exact .nil
  | @cons l l' gs gs' hl hs ih =>
    have i := ih fun l hl => hb l (List.mem_cons_of_mem _ hl)
    have hb' := hb l' List.mem_cons_self
    have hlen := hl.length_eq
    have e := Ref.ofTraps_of_length l' l.length hlen.symm
    have hreg := (Ref.ofTraps_ok hb').reg hd
    have hg : (Ref.ofTraps l).gap (fun _ _ => 0) = 0 := by
      unfold Ref.Traps.gap Ref.ofTraps
      simp
    have hreg' : (Ref.ofTraps l').Reg dw := hreg
    rw [e] at hreg'
    have := Ref.Kin.cons (dw := dw) (ε := ε) (Ref.ofTraps l) (fun _ _ => 0)
      (fun j => (l'[j.1]'(by rw [← hlen]; exact j.2)).density)
      (fun x j => Real.exp (-x / (l'[j.1]'(by rw [← hlen]; exact j.2)).releaseTimescale)) hreg' ?_ i
    · rw [hg, add_zero] at this
      rw [List.map_cons, List.map_cons, e]
      exact this
    · have near : ∀ (j : ℕ) (h1 : j < l.length) (h2 : j < l'.length), Trap.Near ε l[j] l'[j] := fun j h1 h2 =>
        (List.forall₂_iff_get.1 hl).2 j h1 h2
      refine ⟨fun j => (near j.1 j.2 (by rw [← hlen]; exact j.2)).density, fun j => ?_⟩
      have hj : j.1 < l'.length := by rw [← hlen]; exact j.2
      have n2 := (near j.1 j.2 hj).rate
      obtain ⟨d, τ, b, et, -, hτ⟩ := hb' l'[j.1] (List.getElem_mem hj)
      have hτ' : 0 < (l'[j.1]'hj).releaseTimescale := by rw [et]; exact hτ
      have := exp_near (x := dw) h0 hd.le (one_div_nonneg.2 hτ'.le) n2 h1
      rw [mul_one_div, mul_one_div] at this
      exact this

theorem Ref.ofTraps_filling (gs : List (List Trap)) : Ref.filling (gs.map Ref.ofTraps) = 0 := by
  unfold Ref.filling
  refine List.sum_eq_zero fun x hx => ?_
  obtain ⟨t, ht, rfl⟩ := List.mem_map.1 hx
  obtain ⟨l, hl, rfl⟩ := List.mem_map.1 ht
  unfold Ref.Traps.filled Ref.ofTraps
  simp

/-- The second readout gains no charge, and the two readouts of two columns differ by at most `1 + q` times what the columns do
and `20 ε q` times the charge. -/
structure Close (R : ℕ) (low ε q : ℝ) (A B : (ℕ → ℝ) → ℕ → ℝ) : Prop where
  total : ∀ y, (∀ r < R, low ≤ y r) → ∑ r ∈ Finset.range R, B y r ≤ ∑ r ∈ Finset.range R, y r
  near : ∀ x y, (∀ r < R, low ≤ x r) → (∀ r < R, low ≤ y r) →
    colDist R (A x) (B y) ≤ (1 + q) * colDist R x y + 20 * ε * q * ∑ r ∈ Finset.range R, y r

theorem Mild.mono {R : ℕ} {low left q q' : ℝ} {A : (ℕ → ℝ) → ℕ → ℝ} (h : Mild R low left q A) (hl : 0 ≤ low) (hq : q ≤ q') :
    Mild R low left q' A :=
  ⟨h.floor, fun x hx => (h.small x hx).trans (mul_le_mul_of_nonneg_right hq (Finset.sum_nonneg fun r hr =>
      hl.trans (hx r (Finset.mem_range.1 hr)))),
    fun x y hx hy => (h.lip x y hx hy).trans (mul_le_mul_of_nonneg_right hq (Finset.sum_nonneg fun _ _ => abs_nonneg _))⟩

theorem lossSlope_mono {l l' : ℝ} (h : l ≤ l') (h1 : l' < 1) (N : ℕ) : lossSlope l N ≤ lossSlope l' N := by
  unfold lossSlope
  have : 1 / (1 - l) ≤ 1 / (1 - l') := one_div_le_one_div_of_le (by linarith) (by linarith)
  linarith [pow_le_pow_left₀ (one_div_nonneg.2 (by linarith)) this N]

section columns
variable {full power dw : ℝ} {gs gs' : List (List Trap)} {i i' : Bool} {c c' : CCD} {o : ℕ} {d d' : PyDirection}

theorem exact_close {f : ℝ → ℝ} {L ε l : ℝ} (hf : LipFill f L) (h : ExactObjects full power dw gs i c o d)
    (h' : ExactObjects full power dw gs' i' c' o d') (h0 : 0 ≤ ε) (h1 : ε ≤ 1) (hn : NearGroups ε gs gs')
    (hl : 2 * (trapCount gs * L) ≤ l) (hl' : 2 * (trapCount gs' * L) ≤ l) (hl1 : l < 1) (n : ℕ) :
    Close n 0 ε (lossSlope l (n + o)) (Ref.readout f dw (gs.map Ref.ofTraps) (Ref.allPasses n o))
      (Ref.readout f dw (gs'.map Ref.ofTraps) (Ref.allPasses n o)) := by
  have k := mul_nonneg h.count_nonneg hf.nonneg_slope
  have k' := mul_nonneg h'.count_nonneg hf.nonneg_slope
  have hF := h.few hf.nonneg_slope (by linarith)
  have hF' := h'.few hf.nonneg_slope (by linarith)
  have one : ∀ todo ∈ Ref.allPasses n o, ∀ p ∈ todo, p.1 < n ∧ p.2 = (1 : ℝ) := by
    intro todo ht p hp
    obtain ⟨k, -, rfl⟩ := List.mem_map.1 ht
    obtain ⟨r, hr, rfl⟩ := List.mem_map.1 hp
    exact ⟨List.mem_range.1 (List.mem_filter.1 hr).1, rfl⟩
  have key := readout_error hf h0 h1 n _ _ hF hF' (Ref.ofTraps_kin h.dwell h0 h1 hn fun l hl => (h'.groups.2 l hl).2)
    (Ref.ofTraps_filling gs') (by rw [Ref.ofTraps_totals]; exact hl) (by rw [Ref.ofTraps_totals]; exact hl') hl1
    (Ref.allPasses n o) (allPasses_good n o).nodup one
  rw [allPasses_length] at key
  refine ⟨fun y hy => (key y y hy hy).1, fun x y hx hy => (key x y hx hy).2.trans (le_of_eq ?_)⟩
  unfold lossSlope
  ring

/-- Power at most one and a background. -/
theorem exact_close_background {ε b low k : ℝ} (h : ExactObjects full power dw gs i c o d)
    (h' : ExactObjects full power dw gs' i' c' o d') (h0 : 0 ≤ ε) (h1 : ε ≤ 1) (hn : NearGroups ε gs gs') (hpw : power ≤ 1)
    (hb : 0 < b) (hk : trapCount gs * (wellFill full power b / b) ≤ k) (hk' : trapCount gs' * (wellFill full power b / b) ≤ k)
    (hk1 : 2 * k < 1) (n : ℕ) (hlow : b ≤ (1 - k) ^ (n + o) * low) (hlow0 : 0 ≤ low) :
    Close n low ε (lossSlope (2 * k) (n + o))
      (Ref.readout (wellFill full power) dw (gs.map Ref.ofTraps) (Ref.allPasses n o))
      (Ref.readout (wellFill full power) dw (gs'.map Ref.ofTraps) (Ref.allPasses n o)) := by
  have hcv := wellFill_concave h.full h.power hpw
  have hf := hcv.lift hb
  have key := exact_close (l := 2 * k) hf h h' h0 h1 hn (by linarith) (by linarith) hk1 n
  have same : ∀ (gs : List (List Trap)) (i : Bool) (c : CCD) (d : PyDirection), ExactObjects full power dw gs i c o d →
      trapCount gs * (wellFill full power b / b) ≤ k → ∀ x : ℕ → ℝ, (∀ r < n, low ≤ x r) →
      Ref.readout (wellFill full power) dw (gs.map Ref.ofTraps) (Ref.allPasses n o) x =
        Ref.readout (liftFill (wellFill full power) b) dw (gs.map Ref.ofTraps) (Ref.allPasses n o) x := by
    intro gs i c d h hk x hx
    have kn := mul_nonneg h.count_nonneg hf.nonneg_slope
    have hF := h.few hf.nonneg_slope (by linarith)
    have same := readout_congr_fill hb.le hf (fun z hz => (liftFill_eq hz).symm) n zero_le_one _ hF
      (by rw [one_mul]; exact hF.few) _ (allPasses_good n o)
    rw [Ref.ofTraps_totals, allPasses_length, one_mul] at same
    refine (same x (fun r hr => hlow0.trans (hx r hr)) fun r hr => hlow.trans ?_).1
    exact mul_le_mul (pow_le_pow_left₀ (by linarith) (by linarith) _) (hx r hr) hlow0 (pow_nonneg (by linarith) _)
  refine ⟨fun y hy => ?_, fun x y hx hy => ?_⟩
  · rw [same gs' i' c' d' h' hk' y hy]
    exact key.total y fun r hr => hlow0.trans (hy r hr)
  · rw [same gs i c d h hk x hx, same gs' i' c' d' h' hk' y hy]
    exact key.near x y (fun r hr => hlow0.trans (hx r hr)) fun r hr => hlow0.trans (hy r hr)

end columns

/-! ## Images -/

/-- One direction. -/
theorem close_columns {nr nc : ℕ} {low ε q : ℝ} {P Q : (ℕ → ℝ) → ℕ → ℝ} (h : Close nr low ε q P Q) (x : ℕ → ℕ → ℝ)
    (hx : ∀ r < nr, ∀ c < nc, low ≤ x r c) :
    ∑ r ∈ Finset.range nr, ∑ c ∈ Finset.range nc, Q (fun r => x r c) r ≤
        ∑ r ∈ Finset.range nr, ∑ c ∈ Finset.range nc, x r c ∧
    ∑ r ∈ Finset.range nr, ∑ c ∈ Finset.range nc, |P (fun r => x r c) r - Q (fun r => x r c) r| ≤
      20 * ε * q * ∑ r ∈ Finset.range nr, ∑ c ∈ Finset.range nc, x r c := by
  constructor
  · rw [Finset.sum_comm, Finset.sum_comm (s := Finset.range nr)]
    exact Finset.sum_le_sum fun c hc => h.total (fun r => x r c) fun r hr => hx r hr c (Finset.mem_range.1 hc)
  · rw [Finset.sum_comm, Finset.sum_comm (s := Finset.range nr), Finset.mul_sum]
    refine Finset.sum_le_sum fun c hc => ?_
    have hc' := Finset.mem_range.1 hc
    have := h.near (fun r => x r c) (fun r => x r c) (fun r hr => hx r hr c hc') fun r hr => hx r hr c hc'
    have e : colDist nr (fun r => x r c) (fun r => x r c) = 0 := by simp [colDist]
    rw [e, mul_zero, zero_add] at this
    exact this

/-- Two directions, one after the other. -/
theorem close_image {nr nc : ℕ} {lp ls ε qp qs qp' : ℝ} {P Q S T : (ℕ → ℝ) → ℕ → ℝ} (hP : Close nr lp ε qp P Q)
    (hS : Close nc ls ε qs S T) (mP : Mild nr lp ls qp' P) (mQ : Mild nr lp ls qp' Q) (h0 : 0 ≤ ε) (hqs : 0 ≤ qs)
    (x : ℕ → ℕ → ℝ) (hx : ∀ r < nr, ∀ c < nc, lp ≤ x r c) :
    ∑ r ∈ Finset.range nr, ∑ c ∈ Finset.range nc,
        |S (fun c => P (fun r => x r c) r) c - T (fun c => Q (fun r => x r c) r) c| ≤
      20 * ε * ((1 + qp) * (1 + qs) - 1) * ∑ r ∈ Finset.range nr, ∑ c ∈ Finset.range nc, x r c := by
  obtain ⟨t, e⟩ := close_columns (nc := nc) hP x hx
  set u : ℕ → ℕ → ℝ := fun r c => P (fun r => x r c) r with hu
  set v : ℕ → ℕ → ℝ := fun r c => Q (fun r => x r c) r with hv
  set D := ∑ r ∈ Finset.range nr, ∑ c ∈ Finset.range nc, x r c with hD
  have key : ∑ r ∈ Finset.range nr, ∑ c ∈ Finset.range nc, |S (u r) c - T (v r) c| ≤
      (1 + qs) * ∑ r ∈ Finset.range nr, ∑ c ∈ Finset.range nc, |u r c - v r c| +
        20 * ε * qs * ∑ r ∈ Finset.range nr, ∑ c ∈ Finset.range nc, v r c := by
    rw [Finset.mul_sum, Finset.mul_sum, ← Finset.sum_add_distrib]
    refine Finset.sum_le_sum fun r hr => ?_
    have hr' := Finset.mem_range.1 hr
    exact hS.near (u r) (v r) (fun c hc => mP.floor (fun r => x r c) (fun r hr => hx r hr c hc) r hr')
      fun c hc => mQ.floor (fun r => x r c) (fun r hr => hx r hr c hc) r hr'
  have k1 := mul_le_mul_of_nonneg_left e (by linarith : 0 ≤ 1 + qs)
  have k2 := mul_le_mul_of_nonneg_left t (mul_nonneg (by linarith : 0 ≤ 20 * ε) hqs)
  refine key.trans ?_
  have : (1 + qs) * (20 * ε * qp * D) + 20 * ε * qs * D = 20 * ε * ((1 + qp) * (1 + qs) - 1) * D := by ring
  linarith

/-- The iteration of `remove_cti` for a way of adding CTI that differs by `e` from the one that made the image. -/
theorem removeIter_near {S : Type} (add : Image ℝ → S → Except Err (Image ℝ × S)) (s : S) (truth img : Image ℝ)
    (low q e B : ℝ) (hq0 : 0 ≤ q) (hq1 : q < 1) (he : 0 ≤ e) (hshape : img.SameShape truth) (hB : img.dist truth ≤ B)
    (htruth : ∀ r < truth.nr, ∀ c < truth.nc, low + (B + e / (1 - q)) ≤ truth.px r c)
    (hadd : ∀ x : Image ℝ, x.SameShape truth → (∀ r < truth.nr, ∀ c < truth.nc, low ≤ x.px r c) →
      ∃ y, add x s = .ok (y, s) ∧ y.SameShape truth ∧
        ∑ r ∈ Finset.range truth.nr, ∑ c ∈ Finset.range truth.nc,
          |(y.px r c - x.px r c) - (img.px r c - truth.px r c)| ≤ q * x.dist truth + e) (n : ℕ) :
    ∃ out, removeIter add img n (img, s) = .ok (out, s) ∧ out.SameShape truth ∧
      out.dist truth ≤ q ^ n * B + e / (1 - q) := by
  have hE : 0 ≤ e / (1 - q) := div_nonneg he (by linarith)
  have hB0 := (img.dist_nonneg truth).trans hB
  induction n with
  | zero => exact ⟨img, rfl, hshape, by rw [pow_zero, one_mul]; linarith⟩
  | succ n ih =>
    obtain ⟨x, h1, h2, h3⟩ := ih
    have hx : x.dist truth ≤ B + e / (1 - q) := h3.trans (by
      have := mul_le_of_le_one_left hB0 (pow_le_one₀ (n := n) hq0 hq1.le)
      linarith)
    obtain ⟨y, g1, g2, g3⟩ := hadd x h2 (fun r hr c hc => by
      have := x.px_le_dist truth (r := r) (c := c) (by rw [h2.1]; exact hr) (by rw [h2.2]; exact hc)
      have := htruth r hr c hc
      rw [abs_le] at *
      linarith)
    refine ⟨improve img x y, ?_, h2, ?_⟩
    · rw [removeIter_succ, h1]
      simp only [bind, Except.bind, g1]
    · have : (improve img x y).dist truth = ∑ r ∈ Finset.range truth.nr, ∑ c ∈ Finset.range truth.nc,
          |(y.px r c - x.px r c) - (img.px r c - truth.px r c)| := by
        unfold Image.dist improve
        simp only [h2.1, h2.2]
        refine Finset.sum_congr rfl fun r _ => Finset.sum_congr rfl fun c _ => ?_
        rw [← abs_neg]
        congr 1
        ring
      rw [this, pow_succ]
      have h4 := mul_le_mul_of_nonneg_left h3 hq0
      have h5 : q * (e / (1 - q)) + e = e / (1 - q) := by
        have : 1 - q ≠ 0 := by linarith
        field_simp
        ring
      nlinarith

/-! ## C81 -/

section main
variable {fp fs pp ps dp ds : ℝ} {gp gp' gs gs' : List (List Trap)} {ip is ip' is' : Bool} {cp cs cp' cs' : CCD} {op os : ℕ}
  {par ser par' ser' : PyDirection}

/-- **C81**: `add_cti` with two descriptions of the traps whose densities and release rates differ by a fraction `ε` at
most, `well_fill_power ≥ 1`. Let `λ` be at least twice the numbers of traps per pixel times `power / full_well_depth` and
`q = (1-λ_p)^-(rows+offset_p) · (1-λ_s)^-(columns+offset_s) - 1`. Then the images differ by at most `20 ε q` times the charge
of the image, summed over all pixels. -/
theorem C81_add_cti (hp : ExactObjects fp pp dp gp ip cp op par) (hs : ExactObjects fs ps ds gs is cs os ser)
    (hp' : ExactObjects fp pp dp gp' ip' cp' op par') (hs' : ExactObjects fs ps ds gs' is' cs' os ser') (ε : ℝ)
    (h0 : 0 ≤ ε) (h1 : ε ≤ 1) (np : NearGroups ε gp gp') (ns : NearGroups ε gs gs') (hpp : 1 ≤ pp) (hps : 1 ≤ ps)
    (img : Image ℝ) (hnr : 0 < img.nr) (hnc : 0 < img.nc) (himg : ∀ r < img.nr, ∀ c < img.nc, 0 ≤ img.px r c) (lp ls q : ℝ)
    (hlp : 2 * (trapCount gp * (pp / fp)) ≤ lp) (hlp' : 2 * (trapCount gp' * (pp / fp)) ≤ lp)
    (hls : 2 * (trapCount gs * (ps / fs)) ≤ ls) (hls' : 2 * (trapCount gs' * (ps / fs)) ≤ ls) (hlp1 : lp < 1) (hls1 : ls < 1)
    (hq : q = (1 / (1 - lp)) ^ (img.nr + op) * (1 / (1 - ls)) ^ (img.nc + os) - 1) :
    ∃ a b roes roes', addCtiPy img par .all ser .all none = .ok (a, roes) ∧
      addCtiPy img par' .all ser' .all none = .ok (b, roes') ∧ a.SameShape img ∧ b.SameShape img ∧
      a.dist b ≤ 20 * ε * q * img.total := by
  have fpL := wellFill_lip hp.full hpp
  have fsL := wellFill_lip hs.full hps
  have kp := mul_nonneg hp.count_nonneg fpL.nonneg_slope
  have ks := mul_nonneg hs.count_nonneg fsL.nonneg_slope
  have mP := (hp.mild hpp (by linarith) img.nr).mono le_rfl (lossSlope_mono hlp hlp1 (img.nr + op))
  have mP' := (hp'.mild hpp (by linarith) img.nr).mono le_rfl (lossSlope_mono hlp' hlp1 (img.nr + op))
  have cP := exact_close fpL hp hp' h0 h1 np hlp hlp' hlp1 img.nr
  have cS := exact_close fsL hs hs' h0 h1 ns hls hls' hls1 img.nc
  obtain ⟨a, a1, a2, a3, a4⟩ := C55_add_cti img hnr hnc fp fs pp ps dp ds gp gs ip is cp cs op os par ser hp hs
  obtain ⟨b, b1, b2, b3, b4⟩ := C55_add_cti img hnr hnc fp fs pp ps dp ds gp' gs' ip' is' cp' cs' op os par' ser' hp' hs'
  refine ⟨a, b, _, _, a1, b1, ⟨a2, a3⟩, ⟨b2, b3⟩, ?_⟩
  have key := close_image cP cS mP mP' h0 (lossSlope_nonneg (by linarith) hls1 _) img.px himg
  have e : (1 + lossSlope lp (img.nr + op)) * (1 + lossSlope ls (img.nc + os)) - 1 = q := by
    rw [hq]; unfold lossSlope; ring
  rw [e] at key
  refine le_trans (le_of_eq ?_) key
  unfold Image.dist
  rw [a2, a3]
  refine Finset.sum_congr rfl fun r hr => Finset.sum_congr rfl fun c hc => ?_
  rw [a4 r (Finset.mem_range.1 hr) c (Finset.mem_range.1 hc), b4 r (Finset.mem_range.1 hr) c (Finset.mem_range.1 hc)]

/-- **C81**: `remove_cti` with a wrong description of the traps. The image was made by `add_cti` from the true image with
other densities and release rates, the difference being a fraction `ε` at most. If `q < 1` and every pixel of the true image has
at least `q + 20 ε q / (1-q)` times the total charge of the image, the image returned after `n` iterations differs from
the true image by at most `q^(n+1) + 20 ε q / (1-q)` times its total charge. -/
theorem C81_remove_cti (hp : ExactObjects fp pp dp gp ip cp op par) (hs : ExactObjects fs ps ds gs is cs os ser)
    (hp' : ExactObjects fp pp dp gp' ip' cp' op par') (hs' : ExactObjects fs ps ds gs' is' cs' os ser') (ε : ℝ)
    (h0 : 0 ≤ ε) (h1 : ε ≤ 1) (np : NearGroups ε gp gp') (ns : NearGroups ε gs gs') (hpp : 1 ≤ pp) (hps : 1 ≤ ps)
    (truth : Image ℝ) (hnr : 0 < truth.nr) (hnc : 0 < truth.nc) (lp ls q : ℝ)
    (hlp : 2 * (trapCount gp * (pp / fp)) ≤ lp) (hlp' : 2 * (trapCount gp' * (pp / fp)) ≤ lp)
    (hls : 2 * (trapCount gs * (ps / fs)) ≤ ls) (hls' : 2 * (trapCount gs' * (ps / fs)) ≤ ls) (hlp1 : lp < 1) (hls1 : ls < 1)
    (hq : q = (1 / (1 - lp)) ^ (truth.nr + op) * (1 / (1 - ls)) ^ (truth.nc + os) - 1) (hq1 : q < 1) (hpos : 0 ≤ truth.total)
    (htruth : ∀ r < truth.nr, ∀ c < truth.nc, (q + 20 * ε * q / (1 - q)) * truth.total ≤ truth.px r c) :
    ∃ img roes, addCtiPy truth par' .all ser' .all none = .ok (img, roes) ∧
      ∀ n, ∃ out, removeCtiPy img n par .all ser .all none = .ok (out, par.roe, ser.roe) ∧ out.SameShape truth ∧
        out.dist truth ≤ (q ^ (n + 1) + 20 * ε * q / (1 - q)) * truth.total := by
  have fpL := wellFill_lip hp.full hpp
  have fsL := wellFill_lip hs.full hps
  have kp := mul_nonneg hp.count_nonneg fpL.nonneg_slope
  have ks := mul_nonneg hs.count_nonneg fsL.nonneg_slope
  have mP := (hp.mild hpp (by linarith) truth.nr).mono le_rfl (lossSlope_mono hlp hlp1 (truth.nr + op))
  have mS := (hs.mild hps (by linarith) truth.nc).mono le_rfl (lossSlope_mono hls hls1 (truth.nc + os))
  have mP' := (hp'.mild hpp (by linarith) truth.nr).mono le_rfl (lossSlope_mono hlp' hlp1 (truth.nr + op))
  have mS' := (hs'.mild hps (by linarith) truth.nc).mono le_rfl (lossSlope_mono hls' hls1 (truth.nc + os))
  have cP := exact_close fpL hp hp' h0 h1 np hlp hlp' hlp1 truth.nr
  have cS := exact_close fsL hs hs' h0 h1 ns hls hls' hls1 truth.nc
  have q0p := lossSlope_nonneg (by linarith : 0 ≤ lp) hlp1 (truth.nr + op)
  have q0s := lossSlope_nonneg (by linarith : 0 ≤ ls) hls1 (truth.nc + os)
  have qe : (1 + lossSlope lp (truth.nr + op)) * (1 + lossSlope ls (truth.nc + os)) - 1 = q := by
    rw [hq]; unfold lossSlope; ring
  have hq0 : 0 ≤ q := by rw [← qe]; nlinarith
  have hE : 0 ≤ 20 * ε * q / (1 - q) := div_nonneg (mul_nonneg (by linarith) hq0) (by linarith)
  have ht0 : ∀ r < truth.nr, ∀ c < truth.nc, 0 ≤ truth.px r c := fun r hr c hc =>
    (mul_nonneg (by linarith) hpos).trans (htruth r hr c hc)
  obtain ⟨img, b1, b2, b3, b4⟩ :=
    C55_add_cti truth hnr hnc fp fs pp ps dp ds gp' gs' ip' is' cp' cs' op os par' ser' hp' hs'
  have small := mild_image_small mP' mS' q0s truth.px ht0
  have close := close_image cP cS mP mP' h0 q0s truth.px ht0
  rw [qe] at small close
  change _ ≤ q * truth.total at small
  change _ ≤ 20 * ε * q * truth.total at close
  have hdist : img.dist truth ≤ q * truth.total := by
    refine le_trans (le_of_eq ?_) small
    unfold Image.dist
    rw [b2, b3]
    refine Finset.sum_congr rfl fun r hr => Finset.sum_congr rfl fun c hc => ?_
    rw [b4 r (Finset.mem_range.1 hr) c (Finset.mem_range.1 hc)]
  have hroe : par.roe = some (.standard [dp] true true true ip) ∧ ser.roe = some (.standard [ds] true true true is) := by
    rw [hp.eq, hs.eq]; exact ⟨rfl, rfl⟩
  refine ⟨img, _, b1, fun n => ?_⟩
  have sp : (q + 20 * ε * q / (1 - q)) * truth.total = q * truth.total + 20 * ε * q * truth.total / (1 - q) := by ring
  have main := removeIter_near (fun x (roes : Option (Roe ℝ) × Option (Roe ℝ)) => do
      let (y, rp, rs) ← addCtiPy x { par with roe := roes.1 } .all { ser with roe := roes.2 } .all none
      pure (y, roes.1.map fun _ => rp, roes.2.map fun _ => rs)) (par.roe, ser.roe) truth img 0 q
    (20 * ε * q * truth.total) (q * truth.total) hq0 hq1 (mul_nonneg (mul_nonneg (by linarith) hq0) hpos) ⟨b2, b3⟩ hdist
    (fun r hr c hc => by rw [zero_add, ← sp]; exact htruth r hr c hc) (fun x hx hlow => ?_) n
  · obtain ⟨out, o1, o2, o3⟩ := main
    refine ⟨out, o1, o2, o3.trans (le_of_eq ?_)⟩
    ring
  · obtain ⟨y, g1, g2, g3, g4⟩ := C55_add_cti x (by rw [hx.1]; exact hnr) (by rw [hx.2]; exact hnc) fp fs pp ps dp ds gp
      gs ip is cp cs op os par ser hp hs
    rw [hx.1, hx.2] at g4
    refine ⟨y, ?_, ⟨g2.trans hx.1, g3.trans hx.2⟩, ?_⟩
    · simp only [bind, Except.bind]
      rw [g1]
      simp only [hroe.1, hroe.2, Option.map_some]
      rfl
    · have lip := mild_image mP mS q0s x.px truth.px hlow ht0
      rw [qe] at lip
      have e : x.dist truth = ∑ r ∈ Finset.range truth.nr, ∑ c ∈ Finset.range truth.nc, |x.px r c - truth.px r c| := by
        unfold Image.dist
        rw [hx.1, hx.2]
      rw [e]
      refine le_trans ?_ (add_le_add lip close)
      rw [← Finset.sum_add_distrib]
      refine Finset.sum_le_sum fun r hr => ?_
      rw [← Finset.sum_add_distrib]
      refine Finset.sum_le_sum fun c hc => ?_
      rw [g4 r (Finset.mem_range.1 hr) c (Finset.mem_range.1 hc), b4 r (Finset.mem_range.1 hr) c (Finset.mem_range.1 hc)]
      refine le_trans (le_of_eq ?_) (abs_add_le _ _)
      congr 1
      ring

/-- **C81** for parallel clocking with `well_fill_power ≤ 1` and a background, as in C58: `remove_cti` with a wrong
description of the traps. -/
theorem C81_background (hp : ExactObjects fp pp dp gp ip cp op par) (hp' : ExactObjects fp pp dp gp' ip' cp' op par') (ε : ℝ)
    (h0 : 0 ≤ ε) (h1 : ε ≤ 1) (np : NearGroups ε gp gp') (hpp : pp ≤ 1) (truth : Image ℝ) (hnr : 0 < truth.nr)
    (b low k q : ℝ) (hb : 0 < b) (hk : trapCount gp * (wellFill fp pp b / b) ≤ k)
    (hk' : trapCount gp' * (wellFill fp pp b / b) ≤ k) (hk1 : 2 * k < 1)
    (hlow : b ≤ (1 - k) ^ (truth.nr + op) * low) (hq : q = (1 / (1 - 2 * k)) ^ (truth.nr + op) - 1) (hq1 : q < 1)
    (hpos : 0 ≤ truth.total)
    (htruth : ∀ r < truth.nr, ∀ c < truth.nc, low + (q + 20 * ε * q / (1 - q)) * truth.total ≤ truth.px r c) :
    ∃ img roes, addCtiPy truth par' .all .absent .all none = .ok (img, roes) ∧
      ∀ n, ∃ out, removeCtiPy img n par .all .absent .all none = .ok (out, par.roe, none) ∧ out.SameShape truth ∧
        out.dist truth ≤ (q ^ (n + 1) + 20 * ε * q / (1 - q)) * truth.total := by
  have hw0 : 0 ≤ wellFill fp pp b / b := div_nonneg ((wellFill_exact hp.full hp.power).1.nonneg b) hb.le
  have kp := mul_nonneg hp.count_nonneg hw0
  have kp' := mul_nonneg hp'.count_nonneg hw0
  have hlow0 : 0 ≤ low := by
    by_contra hneg
    have := mul_nonpos_of_nonneg_of_nonpos (pow_nonneg (by linarith : 0 ≤ 1 - k) (truth.nr + op)) (not_le.1 hneg).le
    linarith
  have up : ∀ z, 0 ≤ z → z ≤ k → b ≤ (1 - z) ^ (truth.nr + op) * low := fun z h0 hz =>
    hlow.trans (mul_le_mul_of_nonneg_right (pow_le_pow_left₀ (by linarith) (by linarith) _) hlow0)
  have mP := (hp.mild_background hpp hb (by linarith) truth.nr (low := low) (up _ kp hk)).mono hlow0
    (lossSlope_mono (l' := 2 * k) (by linarith) hk1 (truth.nr + op))
  have mP' := (hp'.mild_background hpp hb (by linarith) truth.nr (low := low) (up _ kp' hk')).mono hlow0
    (lossSlope_mono (l' := 2 * k) (by linarith) hk1 (truth.nr + op))
  have cP := exact_close_background hp hp' h0 h1 np hpp hb hk hk' hk1 truth.nr hlow hlow0
  have qe : lossSlope (2 * k) (truth.nr + op) = q := hq.symm
  rw [qe] at mP mP' cP
  have hq0 : 0 ≤ q := qe ▸ lossSlope_nonneg (by linarith) hk1 _
  have hE : 0 ≤ 20 * ε * q / (1 - q) := div_nonneg (mul_nonneg (by linarith) hq0) (by linarith)
  have ht0 : ∀ r < truth.nr, ∀ c < truth.nc, low ≤ truth.px r c := fun r hr c hc => by
    have := mul_nonneg (by linarith : 0 ≤ q + 20 * ε * q / (1 - q)) hpos
    linarith [htruth r hr c hc]
  obtain ⟨img, b1, b2, b3, b4⟩ := C55_parallel truth hnr fp pp dp gp' ip' cp' op par' hp'
  have close := (close_columns (nc := truth.nc) cP truth.px ht0).2
  change _ ≤ 20 * ε * q * truth.total at close
  have hdist : img.dist truth ≤ q * truth.total := by
    unfold Image.dist Image.total
    rw [b2, b3, Finset.sum_comm, Finset.sum_comm (s := Finset.range truth.nr), Finset.mul_sum]
    refine Finset.sum_le_sum fun c hc => ?_
    have hc' := Finset.mem_range.1 hc
    refine le_trans (le_of_eq ?_) (mP'.small (fun r => truth.px r c) fun r hr => ht0 r hr c hc')
    refine Finset.sum_congr rfl fun r hr => ?_
    rw [b4 r (Finset.mem_range.1 hr) c hc']
  have hroe : par.roe = some (.standard [dp] true true true ip) := by rw [hp.eq]
  refine ⟨img, _, b1, fun n => ?_⟩
  have sp : (q + 20 * ε * q / (1 - q)) * truth.total = q * truth.total + 20 * ε * q * truth.total / (1 - q) := by ring
  have main := removeIter_near (fun x (roes : Option (Roe ℝ) × Option (Roe ℝ)) => do
      let (y, rp, rs) ← addCtiPy x { par with roe := roes.1 } .all { PyDirection.absent with roe := roes.2 } .all none
      pure (y, roes.1.map fun _ => rp, roes.2.map fun _ => rs)) (par.roe, none) truth img low q
    (20 * ε * q * truth.total) (q * truth.total) hq0 hq1 (mul_nonneg (mul_nonneg (by linarith) hq0) hpos) ⟨b2, b3⟩ hdist
    (fun r hr c hc => by rw [← sp]; exact htruth r hr c hc) (fun x hx hlow => ?_) n
  · obtain ⟨out, o1, o2, o3⟩ := main
    refine ⟨out, o1, o2, o3.trans (le_of_eq ?_)⟩
    ring
  · obtain ⟨y, g1, g2, g3, g4⟩ := C55_parallel x (by rw [hx.1]; exact hnr) fp pp dp gp ip cp op par hp
    rw [hx.1, hx.2] at g4
    refine ⟨y, ?_, ⟨g2.trans hx.1, g3.trans hx.2⟩, ?_⟩
    · simp only [bind, Except.bind]
      have e2 : addCtiPy x { par with roe := par.roe } .all { PyDirection.absent with roe := none } .all none =
          .ok (y, .standard [dp] true true true ip, Roe.default) := g1
      rw [e2]
      simp only [hroe, Option.map_some, Option.map_none]
      rfl
    · have lip : ∑ r ∈ Finset.range truth.nr, ∑ c ∈ Finset.range truth.nc,
          |(Ref.readout (wellFill fp pp) dp (gp.map Ref.ofTraps) (Ref.allPasses truth.nr op) (fun r => x.px r c) r - x.px r c) -
            (Ref.readout (wellFill fp pp) dp (gp.map Ref.ofTraps) (Ref.allPasses truth.nr op) (fun r => truth.px r c) r -
              truth.px r c)| ≤ q * x.dist truth := by
        have e : x.dist truth = ∑ c ∈ Finset.range truth.nc, ∑ r ∈ Finset.range truth.nr, |x.px r c - truth.px r c| := by
          unfold Image.dist
          rw [hx.1, hx.2, Finset.sum_comm]
        rw [e, Finset.sum_comm, Finset.mul_sum]
        refine Finset.sum_le_sum fun c hc => ?_
        have hc' := Finset.mem_range.1 hc
        exact mP.lip (fun r => x.px r c) (fun r => truth.px r c) (fun r hr => hlow r hr c hc') fun r hr => ht0 r hr c hc'
      refine le_trans ?_ (add_le_add lip close)
      rw [← Finset.sum_add_distrib]
      refine Finset.sum_le_sum fun r hr => ?_
      rw [← Finset.sum_add_distrib]
      refine Finset.sum_le_sum fun c hc => ?_
      rw [g4 r (Finset.mem_range.1 hr) c (Finset.mem_range.1 hc), b4 r (Finset.mem_range.1 hr) c (Finset.mem_range.1 hc)]
      refine le_trans (le_of_eq ?_) (abs_add_le _ _)
      congr 1
      ring

end main

/-- **C81** for the HST preset: correction with the traps of `date` of an image with the CTI of `date'`, both before or both
after the change of the operating temperature. -/
theorem C81_hst (date date' : ℝ) (hd : 2452334.5 ≤ date) (hd' : 2452334.5 ≤ date') (hT : date < 2453920 ↔ date' < 2453920)
    (ε : ℝ) (h1 : ε ≤ 1) (hε : |hstTotalDensity date - hstTotalDensity date'| ≤ ε * hstTotalDensity date')
    (truth : Image ℝ) (hnr : 0 < truth.nr) (o : ℕ) (b low k q : ℝ) (hb : 0 < b)
    (hk : hstTotalDensity date * (wellFill 84700 0.478 b / b) ≤ k)
    (hk' : hstTotalDensity date' * (wellFill 84700 0.478 b / b) ≤ k) (hk1 : 2 * k < 1)
    (hlow : b ≤ (1 - k) ^ (truth.nr + o) * low) (hq : q = (1 / (1 - 2 * k)) ^ (truth.nr + o) - 1) (hq1 : q < 1)
    (hpos : 0 ≤ truth.total)
    (htruth : ∀ r < truth.nr, ∀ c < truth.nc, low + (q + 20 * ε * q / (1 - q)) * truth.total ≤ truth.px r c) :
    ∃ traps ccd roe traps' ccd' roe' img, modelForHstAcs date = .ok (traps, ccd, roe) ∧
      modelForHstAcs date' = .ok (traps', ccd', roe') ∧
      addCtiPy truth ⟨some ccd', some roe', some (.list (traps'.map .trap)), 0, o⟩ .all .absent .all none =
        .ok (img, roe', Roe.default) ∧
      ∀ n, ∃ out, removeCtiPy img n ⟨some ccd, some roe, some (.list (traps.map .trap)), 0, o⟩ .all .absent .all none =
          .ok (out, some roe, none) ∧ out.SameShape truth ∧
        out.dist truth ≤ (q ^ (n + 1) + 20 * ε * q / (1 - q)) * truth.total := by
  obtain ⟨traps, ccd, h, hne, hx⟩ := hst_exact date hd o
  obtain ⟨traps', ccd', h', hne', hx'⟩ := hst_exact date' hd' o
  have hcount : ∀ date traps ccd, modelForHstAcs date = .ok (traps, ccd, .standard [1] true true true false) →
      trapCount [traps] = hstTotalDensity date := by
    intro date traps ccd h
    obtain ⟨d₁, d₂, d₃, τ₁, τ₂, τ₃, ht, -, -, -, -, -, hsum, -⟩ := C42_species date traps ccd _ h
    rw [← hsum, ht]
    simp [trapCount, Trap.density]
    ring
  have hform : ∀ date traps ccd, 2452334.5 ≤ date →
      modelForHstAcs date = .ok (traps, ccd, .standard [1] true true true false) →
      traps = [.instant (hstDensity date 1.27) (hstReleaseTime date 0.74 0.31) false,
        .instant (hstDensity date 3.38) (hstReleaseTime date 7.7 0.34) false,
        .instant (hstDensity date 2.85) (hstReleaseTime date 37 0.44) false] := by
    intro date traps ccd hd h
    unfold modelForHstAcs at h
    rw [if_neg (not_not.2 hd)] at h
    simp only [CCD.new, PyParam.toFractions, PyParam.perPhase, bloomPerPhase, bind, Except.bind, Except.ok.injEq,
      Prod.mk.injEq] at h
    exact h.1.symm
  have hpos' := hstTotalDensity_pos hd'
  have h0 : 0 ≤ ε := by
    by_contra hneg
    have := mul_neg_of_neg_of_pos (not_le.1 hneg) hpos'
    linarith [abs_nonneg (hstTotalDensity date - hstTotalDensity date')]
  have htemp : hstTemperature date = hstTemperature date' := by
    unfold hstTemperature
    by_cases hc : date < 2453920
    · rw [if_pos hc, if_pos (hT.1 hc)]
    · rw [if_neg hc, if_neg (fun x => hc (hT.2 x))]
  have htime : ∀ τ e, hstReleaseTime date τ e = hstReleaseTime date' τ e := fun τ e => by
    unfold hstReleaseTime; rw [htemp]
  have near1 : ∀ w τ e, 0 ≤ w → 0 < τ → Trap.Near ε (.instant (hstDensity date w) (hstReleaseTime date τ e) false)
      (.instant (hstDensity date' w) (hstReleaseTime date' τ e) false) := by
    intro w τ e hw hτ
    constructor
    · change |hstDensity date w - hstDensity date' w| ≤ ε * hstDensity date' w
      unfold hstDensity
      have hf : 0 ≤ w / (1.27 + 3.38 + 2.85 : ℝ) := div_nonneg hw (by norm_num)
      rw [← mul_sub, abs_mul, abs_of_nonneg hf]
      have := mul_le_mul_of_nonneg_left hε hf
      linarith
    · change |1 / hstReleaseTime date τ e - 1 / hstReleaseTime date' τ e| ≤ ε * (1 / hstReleaseTime date' τ e)
      rw [htime, sub_self, abs_zero]
      have : 0 ≤ hstReleaseTime date' τ e := by
        unfold hstReleaseTime hstTemperature
        split <;> exact (mul_pos (mul_pos hτ (by norm_num)) (Real.exp_pos _)).le
      exact mul_nonneg h0 (one_div_nonneg.2 this)
  have near : NearGroups ε [traps] [traps'] := by
    rw [hform date traps ccd hd h, hform date' traps' ccd' hd' h']
    exact .cons (.cons (near1 _ _ _ (by norm_num) (by norm_num)) (.cons (near1 _ _ _ (by norm_num) (by norm_num))
      (.cons (near1 _ _ _ (by norm_num) (by norm_num)) .nil))) .nil
  obtain ⟨img, roes, g1, g2⟩ := C81_background hx hx' ε h0 h1 near (by norm_num) truth hnr b low k q hb
    (by rw [hcount _ _ _ h]; exact hk) (by rw [hcount _ _ _ h']; exact hk') hk1 hlow hq hq1 hpos htruth
  obtain ⟨img', t1, -⟩ := C55_parallel truth hnr _ _ _ _ _ _ _ _ hx'
  have hr : img = img' ∧ roes = (.standard [1] true true true false, Roe.default) := by
    rw [g1] at t1
    injection t1 with t1
    injection t1 with u v
    exact ⟨u, v⟩
  rw [hr.2] at g1
  refine ⟨traps, ccd, _, traps', ccd', _, img, h, h', ?_, fun n => ?_⟩
  · exact (addCtiPy_trap_list truth ⟨some ccd', some (.standard [1] true true true false), none, 0, o⟩ traps' hne' .all
      .absent .all none).trans g1
  · obtain ⟨out, o1, o2, o3⟩ := g2 n
    refine ⟨out, ?_, o2, o3⟩
    exact (removeCtiPy_trap_list img n ⟨some ccd, some (.standard [1] true true true false), none, 0, o⟩ traps hne .all
      .absent .all none).trans o1

/-! ### The error that remains -/

theorem gain_empty {f : ℝ → ℝ} {L dw : ℝ} (hf : LipFill f L) {gs : List (List Trap)} (h : Ref.Few dw L (gs.map Ref.ofTraps))
    (n : ℝ) : Ref.gain f dw (gs.map Ref.ofTraps) n = -(trapCount gs * f n) := by
  induction gs with
  | nil => simp [Ref.gain, trapCount]
  | cons l gs ih =>
    rw [List.map_cons] at h
    obtain ⟨h1, h2, h3, -⟩ := h.cons
    have i := ih h3
    have hout : (Ref.ofTraps l).outflow dw = 0 := by
      rw [Ref.Traps.outflow_eq]
      refine Finset.sum_eq_zero fun j _ => ?_
      unfold Ref.ofTraps
      simp
    have e : (Ref.ofTraps l).inflow f dw n = (l.map Trap.density).sum * f n := by
      unfold Ref.Traps.inflow
      rw [hout, add_zero, ← Ref.ofTraps_total]
      unfold Ref.Traps.vacant Ref.Traps.total
      rw [Finset.sum_mul]
      refine Finset.sum_congr rfl fun j _ => ?_
      unfold Ref.Traps.release Ref.ofTraps
      simp
    unfold Ref.gain at i ⊢
    rw [List.map_cons, List.map_cons, List.sum_cons, i, h1.transfer_plain hf h2, Ref.Traps.plain_fst, hout, e]
    unfold trapCount
    rw [List.map_cons, List.sum_cons]
    ring

section pixel
variable {fp dp : ℝ} {gp gp' : List (List Trap)} {ip ip' : Bool} {cp cp' : CCD} {par par' : PyDirection}

/-- One pixel, a linear well. -/
theorem readout_pixel (hp : ExactObjects fp 1 dp gp ip cp 0 par) (hfew : trapCount gp ≤ fp) (x : ℕ → ℝ) (h0 : 0 ≤ x 0)
    (h1 : x 0 ≤ fp) :
    Ref.readout (wellFill fp 1) dp (gp.map Ref.ofTraps) (Ref.allPasses 1 0) x 0 = (1 - trapCount gp / fp) * x 0 := by
  have hf := wellFill_lip hp.full (le_refl (1 : ℝ))
  have hl : trapCount gp * (1 / fp) ≤ 1 := by
    rw [mul_one_div, div_le_one hp.full]; exact hfew
  have hF := hp.few hf.nonneg_slope hl
  have e : Ref.allPasses 1 0 = [[(0, 1)]] := by simp [Ref.allPasses, List.range_succ]
  rw [e]
  change (Ref.row (wellFill fp 1) dp (x, gp.map Ref.ofTraps) (0, 1)).1 0 = _
  rw [(row_plain hf hF x (0, 1) h0 zero_le_one (by rw [one_mul]; exact hF.few)).1]
  simp only [Function.update_self]
  rw [gain_empty hf hF]
  have w : wellFill fp 1 (x 0) = x 0 / fp := by
    unfold wellFill
    rw [Real.rpow_one, max_eq_right (div_nonneg h0 hp.full.le), min_eq_right ((div_le_one hp.full).2 h1)]
  rw [w]
  ring

/-- **C81**: the error that remains after any number of iterations of `remove_cti` is proportional to that of the density:
an image of one pixel of `T` electrons, a linear well, `a'` traps per pixel and electron of the full well in truth and `a` in the
correction: after `n` iterations the pixel has `T (1-a')/(1-a) (1-a^(n+1))` electrons. -/
theorem C81_pixel (hp : ExactObjects fp 1 dp gp ip cp 0 par) (hp' : ExactObjects fp 1 dp gp' ip' cp' 0 par') (T a a' : ℝ)
    (ha : a = trapCount gp / fp) (ha' : a' = trapCount gp' / fp) (ha1 : a < 1) (ha1' : a' ≤ 1) (hT : 0 ≤ T)
    (hfull : (1 - a') / (1 - a) * T ≤ fp) (hT1 : T ≤ fp) :
    ∃ img roes, addCtiPy ⟨1, 1, fun _ _ => T⟩ par' .all .absent .all none = .ok (img, roes) ∧
      ∀ n, ∃ out, removeCtiPy img n par .all .absent .all none = .ok (out, par.roe, none) ∧
        out.px 0 0 = (1 - a') / (1 - a) * (1 - a ^ (n + 1)) * T := by
  have hc0 := div_nonneg hp.count_nonneg hp.full.le
  have hc0' := div_nonneg hp'.count_nonneg hp.full.le
  rw [← ha] at hc0
  rw [← ha'] at hc0'
  have few : trapCount gp ≤ fp := by
    have := ha1.le
    rw [ha, div_le_one hp.full] at this
    exact this
  have few' : trapCount gp' ≤ fp := by
    rw [ha', div_le_one hp.full] at ha1'
    exact ha1'
  obtain ⟨img, b1, b2, b3, b4⟩ :=
    C55_parallel ⟨1, 1, fun _ _ => T⟩ Nat.one_pos fp 1 dp gp' ip' cp' 0 par' hp'
  have b5 : img.px 0 0 = (1 - a') * T := by
    rw [b4 0 Nat.one_pos 0 Nat.one_pos, ha']
    exact readout_pixel hp' few' (fun _ => T) hT hT1
  refine ⟨img, _, b1, fun n => ?_⟩
  have hroe : par.roe = some (.standard [dp] true true true ip) := by rw [hp.eq]
  have main : ∃ out, removeIter (fun x (roes : Option (Roe ℝ) × Option (Roe ℝ)) => do
      let (y, rp, rs) ← addCtiPy x { par with roe := roes.1 } .all { PyDirection.absent with roe := roes.2 } .all none
      pure (y, roes.1.map fun _ => rp, roes.2.map fun _ => rs)) img n (img, par.roe, none) = .ok (out, par.roe, none) ∧
      out.nr = 1 ∧ out.nc = 1 ∧ out.px 0 0 = (1 - a') / (1 - a) * (1 - a ^ (n + 1)) * T := by
    induction n with
    | zero =>
      refine ⟨img, rfl, b2, b3, ?_⟩
      rw [b5]
      have : 1 - a ≠ 0 := by linarith
      field_simp
      ring
    | succ n ih =>
      obtain ⟨x, x1, x2, x3, x4⟩ := ih
      have hpw : 0 ≤ a ^ (n + 1) := pow_nonneg hc0 _
      have hpw1 : a ^ (n + 1) ≤ 1 := pow_le_one₀ hc0 ha1.le
      have hr : 0 ≤ (1 - a') / (1 - a) := div_nonneg (by linarith) (by linarith)
      have hx0 : 0 ≤ x.px 0 0 := by
        rw [x4]; exact mul_nonneg (mul_nonneg hr (by linarith)) hT
      have hx1 : x.px 0 0 ≤ fp := by
        rw [x4]
        have := mul_le_of_le_one_right (mul_nonneg hr hT) (by linarith : 1 - a ^ (n + 1) ≤ 1)
        nlinarith
      obtain ⟨y, g1, g2, g3, g4⟩ := C55_parallel x (by rw [x2]; exact Nat.one_pos) fp 1 dp gp ip cp 0 par hp
      rw [x2, x3] at g4
      have y0 : y.px 0 0 = (1 - a) * x.px 0 0 := by
        rw [g4 0 Nat.one_pos 0 Nat.one_pos, ha]
        exact readout_pixel hp few (fun r => x.px r 0) hx0 hx1
      refine ⟨improve img x y, ?_, x2, x3, ?_⟩
      · rw [removeIter_succ, x1]
        simp only [bind, Except.bind]
        have e2 : addCtiPy x { par with roe := par.roe } .all { PyDirection.absent with roe := none } .all none =
            .ok (y, .standard [dp] true true true ip, Roe.default) := g1
        rw [e2]
        simp only [hroe, Option.map_some, Option.map_none]
        rfl
      · change x.px 0 0 + (img.px 0 0 - y.px 0 0) = _
        rw [b5, y0, x4]
        have : 1 - a ≠ 0 := by linarith
        field_simp
        ring
  obtain ⟨out, o1, -, -, o4⟩ := main
  exact ⟨out, o1, o4⟩

end pixel

/-! ### examples -/

/-- The preset ten days late: ten rows of 10000 electrons, of the 100000 electrons 100 at most are misplaced in the end. -/
example : ∃ traps ccd roe traps' ccd' roe' img, modelForHstAcs 2454834.5 = .ok (traps, ccd, roe) ∧
    modelForHstAcs 2454844.5 = .ok (traps', ccd', roe') ∧
    addCtiPy ⟨10, 1, fun _ _ => 10000⟩ ⟨some ccd', some roe', some (.list (traps'.map .trap)), 0, 0⟩ .all .absent .all none =
      .ok (img, roe', Roe.default) ∧
    ∀ n, ∃ out, removeCtiPy img n ⟨some ccd, some roe, some (.list (traps.map .trap)), 0, 0⟩ .all .absent .all none =
        .ok (out, some roe, none) ∧ out.SameShape ⟨10, 1, fun _ _ => 10000⟩ ∧
      out.dist ⟨10, 1, fun _ _ => 10000⟩ ≤ (1 / 100) ^ (n + 1) * 100000 + 100 := by
  have htot : Image.total (⟨10, 1, fun _ _ => 10000⟩ : Image ℝ) = 100000 := by
    simp [Image.total]; norm_num
  have d1 : hstTotalDensity 2454834.5 = 0.905045 := by unfold hstTotalDensity; norm_num
  have d2 : hstTotalDensity 2454844.5 = 0.9085938 := by unfold hstTotalDensity; norm_num
  have hw := (wellFill_exact (full := 84700) (power := 0.478) (by norm_num) (by norm_num)).1.le_one 5000
  obtain ⟨q, hq⟩ : ∃ q : ℝ, q = (1 / (1 - 2 * 0.0002)) ^ (10 + 0) - 1 := ⟨_, rfl⟩
  have q0 : 0 ≤ q := by rw [hq]; norm_num
  have q1 : q ≤ 1 / 200 := by rw [hq]; norm_num
  have q2 : 20 * (1 / 200) * q / (1 - q) ≤ 1 / 1000 := by
    rw [div_le_iff₀ (by linarith)]
    linarith
  obtain ⟨traps, ccd, roe, traps', ccd', roe', img, g1, g2, g3, g4⟩ := C81_hst 2454834.5 2454844.5 (by norm_num) (by norm_num)
    (by norm_num) (1 / 200) (by norm_num) (by rw [d1, d2, abs_le]; constructor <;> norm_num)
    (⟨10, 1, fun _ _ => 10000⟩ : Image ℝ) (by norm_num) 0 5000 5100 0.0002 q (by norm_num) (by rw [d1]; norm_num; linarith)
    (by rw [d2]; norm_num; linarith) (by norm_num) (by norm_num) hq (by linarith) (by rw [htot]; norm_num)
    (fun r _ c _ => by rw [htot]; dsimp only; linarith)
  refine ⟨traps, ccd, roe, traps', ccd', roe', img, g1, g2, g3, fun n => ?_⟩
  obtain ⟨out, o1, o2, o3⟩ := g4 n
  refine ⟨out, o1, o2, o3.trans ?_⟩
  rw [htot]
  have := pow_le_pow_left₀ q0 (by linarith : q ≤ 1 / 100) (n + 1)
  linarith

/-- A density 1 % too low leaves a residue, at every number of iterations. -/
example (c c' : CCD) (d d' : PyDirection) (h : ExactObjects 1000 1 1 [[.instant 100 5 false]] false c 0 d)
    (h' : ExactObjects 1000 1 1 [[.instant 101 5 false]] false c' 0 d') :
    ∃ img roes, addCtiPy ⟨1, 1, fun _ _ => 900⟩ d' .all .absent .all none = .ok (img, roes) ∧
      ∀ n, ∃ out, removeCtiPy img n d .all .absent .all none = .ok (out, d.roe, none) ∧ out.px 0 0 ≤ 899 := by
  obtain ⟨img, roes, g1, g2⟩ := C81_pixel h h' 900 (1 / 10) (101 / 1000) (by simp [trapCount, Trap.density]; norm_num)
    (by simp [trapCount, Trap.density]) (by norm_num) (by norm_num) (by norm_num) (by norm_num) (by norm_num)
  refine ⟨img, roes, g1, fun n => ?_⟩
  obtain ⟨out, o1, o2⟩ := g2 n
  refine ⟨out, o1, ?_⟩
  rw [o2]
  have : (0 : ℝ) ≤ (1 / 10) ^ (n + 1) := by positivity
  have e : (1 - 101 / 1000 : ℝ) / (1 - 1 / 10) = 899 / 900 := by norm_num
  rw [e]
  linarith

/-- Densities off by 1 %: two directions, a linear well of 1000 electrons with half a trap per pixel. -/
example (c c' : CCD) (d d' : PyDirection) (h : ExactObjects 1000 1 1 [[.instant (1 / 2) 5 false]] false c 0 d)
    (h' : ExactObjects 1000 1 1 [[.instant (101 / 200) 5 false]] false c' 0 d') :
    ∃ img roes, addCtiPy ⟨3, 2, fun _ _ => 100⟩ d' .all d' .all none = .ok (img, roes) ∧
      ∀ n, ∃ out, removeCtiPy img n d .all d .all none = .ok (out, d.roe, d.roe) ∧
        out.SameShape ⟨3, 2, fun _ _ => 100⟩ ∧ out.dist ⟨3, 2, fun _ _ => 100⟩ ≤ (1 / 100) ^ (n + 1) * 600 + 2 := by
  have htot : Image.total (⟨3, 2, fun _ _ => 100⟩ : Image ℝ) = 600 := by
    simp [Image.total]; norm_num
  have hc : trapCount [[.instant (1 / 2) 5 false]] = 1 / 2 := by simp [trapCount, Trap.density]
  have hc' : trapCount [[.instant (101 / 200) 5 false]] = 101 / 200 := by simp [trapCount, Trap.density]
  have near : NearGroups (1 / 100) [[.instant (1 / 2) 5 false]] [[.instant (101 / 200) 5 false]] := by
    refine .cons (.cons ⟨?_, ?_⟩ .nil) .nil
    · change |(1 / 2 : ℝ) - 101 / 200| ≤ 1 / 100 * (101 / 200)
      rw [abs_le]; constructor <;> norm_num
    · change |(1 / 5 : ℝ) - 1 / 5| ≤ 1 / 100 * (1 / 5)
      norm_num
  obtain ⟨q, hq⟩ : ∃ q : ℝ, q = (1 / (1 - 101 / 100000)) ^ (3 + 0) * (1 / (1 - 101 / 100000)) ^ (2 + 0) - 1 := ⟨_, rfl⟩
  have q0 : 0 ≤ q := by rw [hq]; norm_num
  have q1 : q ≤ 6 / 1000 := by rw [hq]; norm_num
  have q2 : 20 * (1 / 100) * q / (1 - q) ≤ 1 / 600 := by
    rw [div_le_iff₀ (by linarith)]
    linarith
  obtain ⟨img, roes, g1, g2⟩ := C81_remove_cti h h h' h' (1 / 100) (by norm_num) (by norm_num) near near le_rfl le_rfl
    (⟨3, 2, fun _ _ => 100⟩ : Image ℝ) (by norm_num) (by norm_num) (101 / 100000) (101 / 100000) q (by rw [hc]; norm_num)
    (by rw [hc']; norm_num) (by rw [hc]; norm_num) (by rw [hc']; norm_num) (by norm_num) (by norm_num) hq (by linarith)
    (by rw [htot]; norm_num) (fun r _ c _ => by rw [htot]; dsimp only; linarith)
  refine ⟨img, roes, g1, fun n => ?_⟩
  obtain ⟨out, o1, o2, o3⟩ := g2 n
  refine ⟨out, o1, o2, o3.trans ?_⟩
  rw [htot]
  have := pow_le_pow_left₀ q0 (by linarith : q ≤ 1 / 100) (n + 1)
  linarith

end Arctic
