import Verif.Lemmas.WellFill
import Verif.Props.Remove

/-!
# C58 — `remove_cti` converges to the image before CTI
-/

set_option linter.unusedSectionVars false
set_option linter.unusedVariables false

namespace Arctic

/-! ## Specification -/

/-- Sum of the differences of all pixels. -/
noncomputable def Image.dist (i j : Image ℝ) : ℝ :=
  ∑ r ∈ Finset.range i.nr, ∑ c ∈ Finset.range i.nc, |i.px r c - j.px r c|

/-- Sum of all pixels. -/
noncomputable def Image.total (i : Image ℝ) : ℝ := ∑ r ∈ Finset.range i.nr, ∑ c ∈ Finset.range i.nc, i.px r c

/-- The images have one shape. -/
def Image.SameShape (i j : Image ℝ) : Prop := i.nr = j.nr ∧ i.nc = j.nc

/-! ## Columns -/

/-- The readout of columns of `R` pixels of at least `low` electrons changes two columns by amounts that differ by at
most `q` times their distance, changes one column by at most `q` times its charge, and leaves at least `left` electrons in every pixel. -/
structure Mild (R : ℕ) (low left q : ℝ) (A : (ℕ → ℝ) → ℕ → ℝ) : Prop where
  floor : ∀ x, (∀ r < R, low ≤ x r) → ∀ r < R, left ≤ A x r
  small : ∀ x, (∀ r < R, low ≤ x r) → ∑ r ∈ Finset.range R, |A x r - x r| ≤ q * ∑ r ∈ Finset.range R, x r
  lip : ∀ x y, (∀ r < R, low ≤ x r) → (∀ r < R, low ≤ y r) →
    ∑ r ∈ Finset.range R, |(A x r - x r) - (A y r - y r)| ≤ q * colDist R x y

/-- Slope of the change made by `N` passes if one transfer changes by at most half of `l`. -/
noncomputable def lossSlope (l : ℝ) (N : ℕ) : ℝ := (1 / (1 - l)) ^ N - 1

theorem lossSlope_eq {l : ℝ} (hl : l < 1) (N : ℕ) : (1 + passSlope 1 l) ^ N - 1 = lossSlope l N := by
  unfold passSlope lossSlope
  congr 2
  have : 1 - l ≠ 0 := by linarith
  field_simp
  ring

theorem lossSlope_nonneg {l : ℝ} (h0 : 0 ≤ l) (h1 : l < 1) (N : ℕ) : 0 ≤ lossSlope l N := by
  unfold lossSlope
  have : 1 ≤ 1 / (1 - l) := by rw [one_le_div (by linarith)]; linarith
  linarith [one_le_pow₀ (n := N) this]

/-! ### No charge, no change -/

theorem gain_zero {f : ℝ → ℝ} {L dw : ℝ} (hf : LipFill f L) {ts : List Ref.Traps} (h : Ref.Few dw L ts)
    (he : ∀ t ∈ ts, ∀ d, 0 < d → ∀ j, t.occ d j = 0) :
    Ref.gain f dw ts 0 = 0 ∧ ∀ t ∈ Ref.after f dw ts 0, ∀ d, 0 < d → ∀ j, t.occ d j = 0 := by
  induction ts with
  | nil => exact ⟨rfl, by simp [Ref.after]⟩
  | cons t ts ih =>
    obtain ⟨h1, h2, h3, -⟩ := h.cons
    obtain ⟨i1, i2⟩ := ih h3 fun x hx => he x (List.mem_cons_of_mem _ hx)
    have ht := he t List.mem_cons_self
    have hout : t.outflow dw = 0 := by
      rw [Ref.Traps.outflow_eq]
      refine Finset.sum_eq_zero fun j _ => ?_
      rw [integral_congr_pos zero_le_one (g := fun _ => 0) fun d hd => ht d hd j]
      simp
    have hf0 : f (0 + t.outflow dw) = 0 := by rw [hout, add_zero]; exact hf.empty 0 le_rfl
    have e := h1.transfer_plain hf h2 0
    refine ⟨?_, fun x hx => ?_⟩
    · unfold Ref.gain at i1 ⊢
      rw [List.map_cons, List.sum_cons, i1, e, add_zero]
      unfold Ref.Traps.plain
      rw [hf0, hout]
      simp [Ref.Traps.vacant]
    · unfold Ref.after at hx i2
      rw [List.map_cons, e] at hx
      rcases List.mem_cons.1 hx with rfl | hx
      · intro d hd j
        change (if d ≤ f (0 + t.outflow dw) then (1 : ℝ) else t.occ d j * t.keep dw j) = 0
        rw [hf0, if_neg (not_le.2 hd), ht d hd j, zero_mul]
      · exact i2 x hx

theorem readout_zero {f : ℝ → ℝ} {L dw : ℝ} (hf : LipFill f L) {ts : List Ref.Traps} (h : Ref.Few dw L ts)
    (he : ∀ t ∈ ts, ∀ d, 0 < d → ∀ j, t.occ d j = 0) (passes : List (List (ℕ × ℝ))) :
    Ref.readout f dw ts passes (fun _ => 0) = fun _ => 0 := by
  have key : ∀ (todo : List (ℕ × ℝ)) (us : List Ref.Traps), Ref.Few dw L us →
      (∀ t ∈ us, ∀ d, 0 < d → ∀ j, t.occ d j = 0) → (todo.foldl (Ref.row f dw) (fun _ => 0, us)).1 = fun _ => 0 := by
    intro todo
    induction todo with
    | nil => intro us _ _; rw [List.foldl_nil]
    | cons p todo ih =>
      intro us hu heu
      obtain ⟨g1, g2⟩ := gain_zero hf hu heu
      have e : Ref.row f dw (fun _ => 0, us) p = (fun _ => 0, Ref.after f dw us 0) := by
        rw [Ref.row_eq]
        simp only [g1, zero_mul, add_zero, max_self]
        congr 1
        split
        · rfl
        · exact Function.update_eq_self p.1 (fun _ => (0 : ℝ))
      rw [List.foldl_cons, e]
      exact ih _ (hu.after hf 0).1 g2
  induction passes with
  | nil => unfold Ref.readout; rw [List.foldl_nil]
  | cons todo passes ih =>
    unfold Ref.readout at ih ⊢
    rw [List.foldl_cons]
    have : Ref.pass f dw ts (fun _ => 0) todo = fun _ => 0 := key todo ts h he
    rw [this, ih]

theorem colDist_zero {R : ℕ} {x : ℕ → ℝ} (hx : ∀ r < R, 0 ≤ x r) :
    colDist R x (fun _ => 0) = ∑ r ∈ Finset.range R, x r := by
  unfold colDist
  refine Finset.sum_congr rfl fun r hr => ?_
  rw [sub_zero, abs_of_nonneg (hx r (Finset.mem_range.1 hr))]

theorem Ref.ofTraps_vacant (gs : List (List Trap)) : ∀ t ∈ gs.map Ref.ofTraps, ∀ d, 0 < d → ∀ j, t.occ d j = 0 := by
  intro t ht d _ j
  obtain ⟨l, -, rfl⟩ := List.mem_map.1 ht
  rfl

section columns
variable {full power dw : ℝ} {gs : List (List Trap)} {i : Bool} {c : CCD} {o : ℕ} {d : PyDirection}

/-- Power at least one. -/
theorem ExactObjects.mild (h : ExactObjects full power dw gs i c o d) (hpw : 1 ≤ power)
    (hfew : 2 * (trapCount gs * (power / full)) < 1) (n : ℕ) :
    Mild n 0 0 (lossSlope (2 * (trapCount gs * (power / full))) (n + o))
      (Ref.readout (wellFill full power) dw (gs.map Ref.ofTraps) (Ref.allPasses n o)) := by
  have hf := wellFill_lip h.full hpw
  have hF := h.few hf.nonneg_slope (by
    have h0 : 0 ≤ trapCount gs * (power / full) := by
      rw [← Ref.ofTraps_totals]
      refine mul_nonneg (Ref.totals_nonneg (dw := dw) fun t ht => ?_) hf.nonneg_slope
      obtain ⟨l, hl, rfl⟩ := List.mem_map.1 ht
      exact (Ref.ofTraps_ok (h.groups.2 l hl).2).reg h.dwell
    linarith)
  have htot := Ref.ofTraps_totals gs
  have key := readout_lip hf n 1 zero_le_one _ hF (by rw [one_mul]; exact hF.few) (by rw [htot]; exact hfew) _
    (allPasses_good n o)
  rw [htot, allPasses_length, lossSlope_eq hfew] at key
  have zero := readout_zero hf hF (Ref.ofTraps_vacant gs) (Ref.allPasses n o)
  refine ⟨fun x hx => (key x x hx hx).1, fun x hx => ?_, fun x y hx hy => (key x y hx hy).2⟩
  have := (key x (fun _ => 0) hx fun _ _ => le_rfl).2
  rw [zero] at this
  simpa only [sub_zero, colDist_zero hx] using this

/-- Power at most one and a background. -/
theorem ExactObjects.mild_background (h : ExactObjects full power dw gs i c o d) (hpw : power ≤ 1) {b low : ℝ}
    (hb : 0 < b) (hfew : 2 * (trapCount gs * (wellFill full power b / b)) < 1) (n : ℕ)
    (hlow : b ≤ (1 - trapCount gs * (wellFill full power b / b)) ^ (n + o) * low) :
    Mild n low ((1 - trapCount gs * (wellFill full power b / b)) ^ (n + o) * low)
      (lossSlope (2 * (trapCount gs * (wellFill full power b / b))) (n + o))
      (Ref.readout (wellFill full power) dw (gs.map Ref.ofTraps) (Ref.allPasses n o)) := by
  have hcv := wellFill_concave h.full h.power hpw
  have hf := hcv.lift hb
  have hnn : 0 ≤ trapCount gs * (wellFill full power b / b) := by
    rw [← Ref.ofTraps_totals]
    refine mul_nonneg (Ref.totals_nonneg (dw := dw) fun t ht => ?_) hf.nonneg_slope
    obtain ⟨l, hl, rfl⟩ := List.mem_map.1 ht
    exact (Ref.ofTraps_ok (h.groups.2 l hl).2).reg h.dwell
  have hF := h.few hf.nonneg_slope (by linarith)
  have htot := Ref.ofTraps_totals gs
  have key := readout_lip hf n 1 zero_le_one _ hF (by rw [one_mul]; exact hF.few) (by rw [htot]; exact hfew) _
    (allPasses_good n o)
  have same := readout_congr_fill hb.le hf (fun z hz => (liftFill_eq hz).symm) n zero_le_one _ hF
    (by rw [one_mul]; exact hF.few) _ (allPasses_good n o)
  rw [htot, allPasses_length, lossSlope_eq hfew] at key
  rw [htot, allPasses_length, one_mul] at same
  set κ := trapCount gs * (wellFill full power b / b)
  have hc : 0 ≤ (1 - κ) ^ (n + o) := pow_nonneg (by linarith) _
  have hc1 : (1 - κ) ^ (n + o) ≤ 1 := pow_le_one₀ (by linarith) (by linarith)
  have hlow0 : 0 ≤ low := by
    by_contra hneg
    have := mul_nonpos_of_nonneg_of_nonpos hc (not_le.1 hneg).le
    linarith
  have up : ∀ x : ℕ → ℝ, (∀ r < n, low ≤ x r) → (∀ r < n, 0 ≤ x r) ∧ ∀ r < n, b ≤ (1 - κ) ^ (n + o) * x r :=
    fun x hx => ⟨fun r hr => hlow0.trans (hx r hr), fun r hr => hlow.trans (mul_le_mul_of_nonneg_left (hx r hr) hc)⟩
  have zero := readout_zero hf hF (Ref.ofTraps_vacant gs) (Ref.allPasses n o)
  refine ⟨fun x hx r hr => ?_, fun x hx => ?_, fun x y hx hy => ?_⟩
  rotate_left
  · obtain ⟨u1, u2⟩ := up x hx
    have := (key x (fun _ => 0) u1 fun _ _ => le_rfl).2
    rw [zero] at this
    rw [(same x u1 u2).1]
    simpa only [sub_zero, colDist_zero u1] using this
  rotate_left
  · obtain ⟨u1, u2⟩ := up x hx
    obtain ⟨s1, s2⟩ := same x u1 u2
    rw [s1]
    exact (mul_le_mul_of_nonneg_left (hx r hr) hc).trans (s2 r hr)
  · obtain ⟨u1, u2⟩ := up x hx
    obtain ⟨v1, v2⟩ := up y hy
    rw [(same x u1 u2).1, (same y v1 v2).1]
    exact (key x y u1 v1).2

end columns

/-! ## Images -/

/-- Two directions, one after the other. -/
theorem mild_image {nr nc : ℕ} {lp ls left qp qs : ℝ} {P S : (ℕ → ℝ) → ℕ → ℝ} (hP : Mild nr lp ls qp P)
    (hS : Mild nc ls left qs S) (hqs : 0 ≤ qs) (x y : ℕ → ℕ → ℝ) (hx : ∀ r < nr, ∀ c < nc, lp ≤ x r c)
    (hy : ∀ r < nr, ∀ c < nc, lp ≤ y r c) :
    ∑ r ∈ Finset.range nr, ∑ c ∈ Finset.range nc,
        |(S (fun c => P (fun r => x r c) r) c - x r c) - (S (fun c => P (fun r => y r c) r) c - y r c)| ≤
      ((1 + qp) * (1 + qs) - 1) * ∑ r ∈ Finset.range nr, ∑ c ∈ Finset.range nc, |x r c - y r c| := by
  set u : ℕ → ℕ → ℝ := fun r c => P (fun r => x r c) r with hu
  set v : ℕ → ℕ → ℝ := fun r c => P (fun r => y r c) r with hv
  set D := ∑ r ∈ Finset.range nr, ∑ c ∈ Finset.range nc, |x r c - y r c| with hD
  have h1 : ∑ r ∈ Finset.range nr, ∑ c ∈ Finset.range nc, |(u r c - x r c) - (v r c - y r c)| ≤ qp * D := by
    rw [Finset.sum_comm, hD, Finset.sum_comm (s := Finset.range nr), Finset.mul_sum]
    refine Finset.sum_le_sum fun c hc => ?_
    have hc' := Finset.mem_range.1 hc
    exact hP.lip (fun r => x r c) (fun r => y r c) (fun r hr => hx r hr c hc') fun r hr => hy r hr c hc'
  have hu0 : ∀ r < nr, ∀ c < nc, ls ≤ u r c := fun r hr c hc => hP.floor (fun r => x r c) (fun r hr => hx r hr c hc) r hr
  have hv0 : ∀ r < nr, ∀ c < nc, ls ≤ v r c := fun r hr c hc => hP.floor (fun r => y r c) (fun r hr => hy r hr c hc) r hr
  have h2 : ∑ r ∈ Finset.range nr, ∑ c ∈ Finset.range nc, |(S (u r) c - u r c) - (S (v r) c - v r c)| ≤
      qs * ∑ r ∈ Finset.range nr, ∑ c ∈ Finset.range nc, |u r c - v r c| := by
    rw [Finset.mul_sum]
    refine Finset.sum_le_sum fun r hr => ?_
    have hr' := Finset.mem_range.1 hr
    exact hS.lip (u r) (v r) (hu0 r hr') (hv0 r hr')
  have h3 : ∑ r ∈ Finset.range nr, ∑ c ∈ Finset.range nc, |u r c - v r c| ≤ (1 + qp) * D := by
    have : ∑ r ∈ Finset.range nr, ∑ c ∈ Finset.range nc, |u r c - v r c| ≤
        ∑ r ∈ Finset.range nr, ∑ c ∈ Finset.range nc, |(u r c - x r c) - (v r c - y r c)| + D := by
      rw [hD, ← Finset.sum_add_distrib]
      refine Finset.sum_le_sum fun r _ => ?_
      rw [← Finset.sum_add_distrib]
      refine Finset.sum_le_sum fun c _ => ?_
      rw [show u r c - v r c = ((u r c - x r c) - (v r c - y r c)) + (x r c - y r c) by ring]
      exact abs_add_le _ _
    linarith
  have h4 : ∑ r ∈ Finset.range nr, ∑ c ∈ Finset.range nc, |(S (u r) c - x r c) - (S (v r) c - y r c)| ≤
      ∑ r ∈ Finset.range nr, ∑ c ∈ Finset.range nc, |(S (u r) c - u r c) - (S (v r) c - v r c)| +
        ∑ r ∈ Finset.range nr, ∑ c ∈ Finset.range nc, |(u r c - x r c) - (v r c - y r c)| := by
    rw [← Finset.sum_add_distrib]
    refine Finset.sum_le_sum fun r _ => ?_
    rw [← Finset.sum_add_distrib]
    refine Finset.sum_le_sum fun c _ => ?_
    rw [show (S (u r) c - x r c) - (S (v r) c - y r c) =
      ((S (u r) c - u r c) - (S (v r) c - v r c)) + ((u r c - x r c) - (v r c - y r c)) by ring]
    exact abs_add_le _ _
  have h5 := mul_le_mul_of_nonneg_left h3 hqs
  refine h4.trans ?_
  nlinarith

theorem mild_image_small {nr nc : ℕ} {lp ls left qp qs : ℝ} {P S : (ℕ → ℝ) → ℕ → ℝ} (hP : Mild nr lp ls qp P)
    (hS : Mild nc ls left qs S) (hqs : 0 ≤ qs) (x : ℕ → ℕ → ℝ) (hx : ∀ r < nr, ∀ c < nc, lp ≤ x r c) :
    ∑ r ∈ Finset.range nr, ∑ c ∈ Finset.range nc, |S (fun c => P (fun r => x r c) r) c - x r c| ≤
      ((1 + qp) * (1 + qs) - 1) * ∑ r ∈ Finset.range nr, ∑ c ∈ Finset.range nc, x r c := by
  set u : ℕ → ℕ → ℝ := fun r c => P (fun r => x r c) r with hu
  set D := ∑ r ∈ Finset.range nr, ∑ c ∈ Finset.range nc, x r c with hD
  have h1 : ∑ r ∈ Finset.range nr, ∑ c ∈ Finset.range nc, |u r c - x r c| ≤ qp * D := by
    rw [Finset.sum_comm, hD, Finset.sum_comm (s := Finset.range nr), Finset.mul_sum]
    refine Finset.sum_le_sum fun c hc => ?_
    exact hP.small (fun r => x r c) fun r hr => hx r hr c (Finset.mem_range.1 hc)
  have h2 : ∑ r ∈ Finset.range nr, ∑ c ∈ Finset.range nc, |S (u r) c - u r c| ≤
      qs * ∑ r ∈ Finset.range nr, ∑ c ∈ Finset.range nc, u r c := by
    rw [Finset.mul_sum]
    refine Finset.sum_le_sum fun r hr => ?_
    exact hS.small (u r) fun c hc =>
      hP.floor (fun r => x r c) (fun r hr => hx r hr c hc) r (Finset.mem_range.1 hr)
  have h3 : ∑ r ∈ Finset.range nr, ∑ c ∈ Finset.range nc, u r c ≤ (1 + qp) * D := by
    have : ∑ r ∈ Finset.range nr, ∑ c ∈ Finset.range nc, u r c ≤
        ∑ r ∈ Finset.range nr, ∑ c ∈ Finset.range nc, |u r c - x r c| + D := by
      rw [hD, ← Finset.sum_add_distrib]
      refine Finset.sum_le_sum fun r _ => ?_
      rw [← Finset.sum_add_distrib]
      refine Finset.sum_le_sum fun c _ => ?_
      linarith [le_abs_self (u r c - x r c)]
    linarith
  have h4 : ∑ r ∈ Finset.range nr, ∑ c ∈ Finset.range nc, |S (u r) c - x r c| ≤
      ∑ r ∈ Finset.range nr, ∑ c ∈ Finset.range nc, |S (u r) c - u r c| +
        ∑ r ∈ Finset.range nr, ∑ c ∈ Finset.range nc, |u r c - x r c| := by
    rw [← Finset.sum_add_distrib]
    refine Finset.sum_le_sum fun r _ => ?_
    rw [← Finset.sum_add_distrib]
    refine Finset.sum_le_sum fun c _ => ?_
    rw [show S (u r) c - x r c = (S (u r) c - u r c) + (u r c - x r c) by ring]
    exact abs_add_le _ _
  have h5 := mul_le_mul_of_nonneg_left h3 hqs
  refine h4.trans ?_
  nlinarith

theorem Image.dist_nonneg (i j : Image ℝ) : 0 ≤ i.dist j :=
  Finset.sum_nonneg fun _ _ => Finset.sum_nonneg fun _ _ => abs_nonneg _

theorem Image.px_le_dist (i j : Image ℝ) {r c : ℕ} (hr : r < i.nr) (hc : c < i.nc) : |i.px r c - j.px r c| ≤ i.dist j := by
  unfold Image.dist
  refine le_trans ?_ (Finset.single_le_sum (f := fun r => ∑ c ∈ Finset.range i.nc, |i.px r c - j.px r c|)
    (fun r _ => Finset.sum_nonneg fun c _ => abs_nonneg _) (Finset.mem_range.2 hr))
  exact Finset.single_le_sum (f := fun c => |i.px r c - j.px r c|) (fun c _ => abs_nonneg _) (Finset.mem_range.2 hc)

/-- The iteration of `remove_cti` for any way of adding CTI whose change has slope `q ≤ 1` near the truth. -/
theorem removeIter_converges {S : Type} (add : Image ℝ → S → Except Err (Image ℝ × S)) (s : S) (truth img : Image ℝ)
    (low q : ℝ) (hq0 : 0 ≤ q) (hq1 : q ≤ 1) (hshape : img.SameShape truth)
    (htruth : ∀ r < truth.nr, ∀ c < truth.nc, low + img.dist truth ≤ truth.px r c)
    (hadd : ∀ x : Image ℝ, x.SameShape truth → (∀ r < truth.nr, ∀ c < truth.nc, low ≤ x.px r c) →
      ∃ y, add x s = .ok (y, s) ∧ y.SameShape truth ∧
        ∑ r ∈ Finset.range truth.nr, ∑ c ∈ Finset.range truth.nc,
          |(y.px r c - x.px r c) - (img.px r c - truth.px r c)| ≤ q * x.dist truth) (n : ℕ) :
    ∃ out, removeIter add img n (img, s) = .ok (out, s) ∧ out.SameShape truth ∧
      out.dist truth ≤ q ^ n * img.dist truth := by
  induction n with
  | zero => exact ⟨img, rfl, hshape, by simp⟩
  | succ n ih =>
    obtain ⟨x, h1, h2, h3⟩ := ih
    have hB := img.dist_nonneg truth
    have hx : x.dist truth ≤ img.dist truth :=
      h3.trans (mul_le_of_le_one_left hB (pow_le_one₀ hq0 hq1))
    obtain ⟨y, g1, g2, g3⟩ := hadd x h2 (fun r hr c hc => by
      have := x.px_le_dist truth (r := r) (c := c) (by rw [h2.1]; exact hr) (by rw [h2.2]; exact hc)
      have := htruth r hr c hc
      rw [abs_le] at *
      linarith)
    refine ⟨improve img x y, ?_, h2, ?_⟩
    · rw [removeIter_succ, h1]
      simp only [bind, Except.bind, g1]
    · have : (improve img x y).dist truth = ∑ r ∈ Finset.range truth.nr, ∑ c ∈ Finset.range truth.nc,
          |(y.px r c - x.px r c) - (img.px r c - truth.px r c)| := by
        unfold Image.dist improve
        simp only [h2.1, h2.2]
        refine Finset.sum_congr rfl fun r _ => Finset.sum_congr rfl fun c _ => ?_
        rw [← abs_neg]
        congr 1
        ring
      rw [this, pow_succ]
      have := mul_le_mul_of_nonneg_left h3 hq0
      nlinarith

/-! ## C58 -/

section general
variable {fp fs pp ps dp ds : ℝ} {gp gs : List (List Trap)} {ip is : Bool} {cp cs : CCD} {op os : ℕ}
  {par ser : PyDirection}

/-- Both directions. -/
theorem removeCtiPy_converges (hp : ExactObjects fp pp dp gp ip cp op par) (hs : ExactObjects fs ps ds gs is cs os ser)
    (truth img : Image ℝ) (hnr : 0 < truth.nr) (hnc : 0 < truth.nc)
    (himg : addCtiPy truth par .all ser .all none =
      .ok (img, .standard [dp] true true true ip, .standard [ds] true true true is))
    {lp ls left qp qs : ℝ}
    (hP : Mild truth.nr lp ls qp (Ref.readout (wellFill fp pp) dp (gp.map Ref.ofTraps) (Ref.allPasses truth.nr op)))
    (hS : Mild truth.nc ls left qs (Ref.readout (wellFill fs ps) ds (gs.map Ref.ofTraps) (Ref.allPasses truth.nc os)))
    (hqp : 0 ≤ qp) (hqs : 0 ≤ qs) (hq1 : (1 + qp) * (1 + qs) - 1 ≤ 1)
    (htruth : ∀ r < truth.nr, ∀ c < truth.nc, lp + img.dist truth ≤ truth.px r c) (n : ℕ) :
    ∃ out, removeCtiPy img n par .all ser .all none = .ok (out, par.roe, ser.roe) ∧ out.SameShape truth ∧
      out.dist truth ≤ ((1 + qp) * (1 + qs) - 1) ^ n * img.dist truth := by
  have run : ∀ x : Image ℝ, x.SameShape truth → ∃ y, addCtiPy x par .all ser .all none =
        .ok (y, .standard [dp] true true true ip, .standard [ds] true true true is) ∧ y.SameShape truth ∧
      ∀ r < truth.nr, ∀ c < truth.nc, y.px r c =
        Ref.readout (wellFill fs ps) ds (gs.map Ref.ofTraps) (Ref.allPasses truth.nc os)
          (fun c => Ref.readout (wellFill fp pp) dp (gp.map Ref.ofTraps) (Ref.allPasses truth.nr op)
            (fun r => x.px r c) r) c := by
    intro x hx
    obtain ⟨y, g1, g2, g3, g4⟩ := C55_add_cti x (by rw [hx.1]; exact hnr) (by rw [hx.2]; exact hnc) fp fs pp ps dp ds gp
      gs ip is cp cs op os par ser hp hs
    rw [hx.1, hx.2] at g4
    exact ⟨y, g1, ⟨g2.trans hx.1, g3.trans hx.2⟩, g4⟩
  obtain ⟨img', t1, t2, t3⟩ := run truth ⟨rfl, rfl⟩
  obtain rfl : img' = img := by
    rw [himg] at t1
    injection t1 with t1
    injection t1 with t1 _
    exact t1.symm
  have hroe : par.roe = some (.standard [dp] true true true ip) ∧ ser.roe = some (.standard [ds] true true true is) := by
    rw [hp.eq, hs.eq]; exact ⟨rfl, rfl⟩
  refine removeIter_converges _ (par.roe, ser.roe) truth img' lp _ ?_ hq1 t2 htruth (fun x hx hlow => ?_) n
  · nlinarith
  · obtain ⟨y, g1, g2, g3⟩ := run x hx
    refine ⟨y, ?_, g2, ?_⟩
    · simp only [bind, Except.bind]
      rw [g1]
      simp only [hroe.1, hroe.2, Option.map_some]
    · have hB := img'.dist_nonneg truth
      have key := mild_image hP hS hqs x.px truth.px hlow
        (fun r hr c hc => by linarith [htruth r hr c hc])
      have e : x.dist truth = ∑ r ∈ Finset.range truth.nr, ∑ c ∈ Finset.range truth.nc, |x.px r c - truth.px r c| := by
        unfold Image.dist
        rw [hx.1, hx.2]
      rw [e]
      refine le_trans (le_of_eq ?_) key
      refine Finset.sum_congr rfl fun r hr => Finset.sum_congr rfl fun c hc => ?_
      rw [g3 r (Finset.mem_range.1 hr) c (Finset.mem_range.1 hc), t3 r (Finset.mem_range.1 hr) c (Finset.mem_range.1 hc)]

/-- Parallel clocking only. -/
theorem removeCtiPy_parallel (hp : ExactObjects fp pp dp gp ip cp op par) (truth img : Image ℝ) (hnr : 0 < truth.nr)
    (himg : addCtiPy truth par .all .absent .all none = .ok (img, .standard [dp] true true true ip, Roe.default))
    {lp left qp : ℝ}
    (hP : Mild truth.nr lp left qp (Ref.readout (wellFill fp pp) dp (gp.map Ref.ofTraps) (Ref.allPasses truth.nr op)))
    (hqp : 0 ≤ qp) (hq1 : qp ≤ 1)
    (htruth : ∀ r < truth.nr, ∀ c < truth.nc, lp + img.dist truth ≤ truth.px r c) (n : ℕ) :
    ∃ out, removeCtiPy img n par .all .absent .all none = .ok (out, par.roe, none) ∧ out.SameShape truth ∧
      out.dist truth ≤ qp ^ n * img.dist truth := by
  have run : ∀ x : Image ℝ, x.SameShape truth → ∃ y, addCtiPy x par .all .absent .all none =
        .ok (y, .standard [dp] true true true ip, Roe.default) ∧ y.SameShape truth ∧
      ∀ r < truth.nr, ∀ c < truth.nc, y.px r c =
        Ref.readout (wellFill fp pp) dp (gp.map Ref.ofTraps) (Ref.allPasses truth.nr op) (fun r => x.px r c) r := by
    intro x hx
    obtain ⟨y, g1, g2, g3, g4⟩ := C55_parallel x (by rw [hx.1]; exact hnr) fp pp dp gp ip cp op par hp
    rw [hx.1, hx.2] at g4
    exact ⟨y, g1, ⟨g2.trans hx.1, g3.trans hx.2⟩, g4⟩
  obtain ⟨img', t1, t2, t3⟩ := run truth ⟨rfl, rfl⟩
  obtain rfl : img' = img := by
    rw [himg] at t1
    injection t1 with t1
    injection t1 with t1 _
    exact t1.symm
  have hroe : par.roe = some (.standard [dp] true true true ip) := by rw [hp.eq]
  refine removeIter_converges _ (par.roe, none) truth img' lp _ hqp hq1 t2 htruth (fun x hx hlow => ?_) n
  obtain ⟨y, g1, g2, g3⟩ := run x hx
  refine ⟨y, ?_, g2, ?_⟩
  · simp only [bind, Except.bind]
    have e2 : addCtiPy x { par with roe := par.roe } .all { PyDirection.absent with roe := none } .all none =
        .ok (y, .standard [dp] true true true ip, Roe.default) := g1
    rw [e2]
    simp only [hroe, Option.map_some, Option.map_none]
  · have hB := img'.dist_nonneg truth
    have e : x.dist truth = ∑ c ∈ Finset.range truth.nc, ∑ r ∈ Finset.range truth.nr, |x.px r c - truth.px r c| := by
      unfold Image.dist
      rw [hx.1, hx.2, Finset.sum_comm]
    rw [e, Finset.sum_comm, Finset.mul_sum]
    refine Finset.sum_le_sum fun c hc => ?_
    have hc' := Finset.mem_range.1 hc
    refine le_trans (le_of_eq ?_) (hP.lip (fun r => x.px r c) (fun r => truth.px r c) (fun r hr => hlow r hr c hc')
      (fun r hr => by linarith [htruth r hr c hc']))
    refine Finset.sum_congr rfl fun r hr => ?_
    rw [g3 r (Finset.mem_range.1 hr) c hc', t3 r (Finset.mem_range.1 hr) c hc']

end general

section main
variable {fp fs pp ps dp ds : ℝ} {gp gs : List (List Trap)} {ip is : Bool} {cp cs : CCD} {op os : ℕ}
  {par ser : PyDirection}

theorem ExactObjects.count_nonneg (h : ExactObjects fp pp dp gp ip cp op par) : 0 ≤ trapCount gp := by
  rw [← Ref.ofTraps_totals]
  refine Ref.totals_nonneg (dw := dp) fun t ht => ?_
  obtain ⟨l, hl, rfl⟩ := List.mem_map.1 ht
  exact (Ref.ofTraps_ok (h.groups.2 l hl).2).reg h.dwell

/-- **C58**: `remove_cti` after `add_cti`, both directions, `well_fill_power ≥ 1`. Let `λ` be twice the number of traps
per pixel times `power / full_well_depth`, and `q = (1-λ_p)^-(rows+offset_p) · (1-λ_s)^-(columns+offset_s) - 1`. If `q ≤ 1`
and every pixel of the true image has at least `q` times the total charge of the image, then the image returned after
`n` iterations differs from the true image by at most `q^(n+1)` times its total charge, summed over all pixels. -/
theorem C58_remove_cti (hp : ExactObjects fp pp dp gp ip cp op par) (hs : ExactObjects fs ps ds gs is cs os ser)
    (hpp : 1 ≤ pp) (hps : 1 ≤ ps) (truth : Image ℝ) (hnr : 0 < truth.nr) (hnc : 0 < truth.nc) (lp ls q : ℝ)
    (hlp : lp = 2 * (trapCount gp * (pp / fp))) (hls : ls = 2 * (trapCount gs * (ps / fs))) (hlp1 : lp < 1) (hls1 : ls < 1)
    (hq : q = (1 / (1 - lp)) ^ (truth.nr + op) * (1 / (1 - ls)) ^ (truth.nc + os) - 1) (hq1 : q ≤ 1)
    (htruth : ∀ r < truth.nr, ∀ c < truth.nc, q * truth.total ≤ truth.px r c) (hpos : 0 ≤ truth.total) :
    ∃ img, addCtiPy truth par .all ser .all none =
        .ok (img, .standard [dp] true true true ip, .standard [ds] true true true is) ∧
      ∀ n, ∃ out, removeCtiPy img n par .all ser .all none = .ok (out, par.roe, ser.roe) ∧ out.SameShape truth ∧
        out.dist truth ≤ q ^ (n + 1) * truth.total := by
  have hlp0 : 0 ≤ lp := by
    rw [hlp]
    have := div_pos (by linarith : 0 < pp) hp.full
    have := mul_nonneg hp.count_nonneg this.le
    linarith
  have hls0 : 0 ≤ ls := by
    rw [hls]
    have := div_pos (by linarith : 0 < ps) hs.full
    have := mul_nonneg hs.count_nonneg this.le
    linarith
  have hP := hp.mild hpp (by rw [← hlp]; exact hlp1) truth.nr
  have hS := hs.mild hps (by rw [← hls]; exact hls1) truth.nc
  rw [← hlp] at hP
  rw [← hls] at hS
  have hqP := lossSlope_nonneg hlp0 hlp1 (truth.nr + op)
  have hqS := lossSlope_nonneg hls0 hls1 (truth.nc + os)
  have hqe : (1 + lossSlope lp (truth.nr + op)) * (1 + lossSlope ls (truth.nc + os)) - 1 = q := by
    rw [hq]; unfold lossSlope; ring
  have hq0 : 0 ≤ q := by rw [← hqe]; nlinarith
  have ht0 : ∀ r < truth.nr, ∀ c < truth.nc, 0 ≤ truth.px r c := fun r hr c hc =>
    (mul_nonneg hq0 hpos).trans (htruth r hr c hc)
  obtain ⟨img, t1, t2, t3, t4⟩ := C55_add_cti truth hnr hnc fp fs pp ps dp ds gp gs ip is cp cs op os par ser hp hs
  have key := mild_image_small hP hS hqS truth.px ht0
  rw [hqe] at key
  have hdist : img.dist truth ≤ q * truth.total := by
    refine le_trans (le_of_eq ?_) key
    unfold Image.dist
    rw [t2, t3]
    refine Finset.sum_congr rfl fun r hr => Finset.sum_congr rfl fun c hc => ?_
    rw [t4 r (Finset.mem_range.1 hr) c (Finset.mem_range.1 hc)]
  refine ⟨img, t1, fun n => ?_⟩
  obtain ⟨out, o1, o2, o3⟩ := removeCtiPy_converges hp hs truth img hnr hnc t1 hP hS hqP hqS (by rw [hqe]; exact hq1)
    (fun r hr c hc => by rw [zero_add]; exact hdist.trans (htruth r hr c hc)) n
  refine ⟨out, o1, o2, o3.trans ?_⟩
  rw [hqe, pow_succ, mul_assoc]
  exact mul_le_mul_of_nonneg_left hdist (pow_nonneg hq0 n)

/-- **C58** for parallel clocking with `well_fill_power ≤ 1` and a background: `b` is a number of electrons that every
pixel keeps during the readout, `k` is at least the number of traps per pixel times the volume per electron of a cloud of
`b` electrons, `low` electrons per pixel before readout guarantee `b` throughout. If `q = (1-2k)^-(rows+offset) - 1 ≤ 1`
and every pixel of the true image has `low` electrons more than `q` times the total charge, then the image returned after
`n` iterations differs from the true image by at most `q^(n+1)` times its total charge. -/
theorem C58_background (hp : ExactObjects fp pp dp gp ip cp op par) (hpp : pp ≤ 1) (truth : Image ℝ)
    (hnr : 0 < truth.nr) (b low k q : ℝ) (hb : 0 < b) (hk : trapCount gp * (wellFill fp pp b / b) ≤ k) (hk1 : 2 * k < 1)
    (hlow : b ≤ (1 - k) ^ (truth.nr + op) * low) (hq : q = (1 / (1 - 2 * k)) ^ (truth.nr + op) - 1) (hq1 : q ≤ 1)
    (htruth : ∀ r < truth.nr, ∀ c < truth.nc, low + q * truth.total ≤ truth.px r c) (hpos : 0 ≤ truth.total) :
    ∃ img, addCtiPy truth par .all .absent .all none = .ok (img, .standard [dp] true true true ip, Roe.default) ∧
      ∀ n, ∃ out, removeCtiPy img n par .all .absent .all none = .ok (out, par.roe, none) ∧ out.SameShape truth ∧
        out.dist truth ≤ q ^ (n + 1) * truth.total := by
  obtain ⟨k₀, hk₀⟩ : ∃ k₀, k₀ = trapCount gp * (wellFill fp pp b / b) := ⟨_, rfl⟩
  rw [← hk₀] at hk
  have hk0 : 0 ≤ k₀ := by
    rw [hk₀]
    exact mul_nonneg hp.count_nonneg (div_nonneg ((wellFill_exact hp.full hp.power).1.nonneg b) hb.le)
  have hlow0 : 0 ≤ low := by
    by_contra hneg
    have := mul_nonpos_of_nonneg_of_nonpos (pow_nonneg (by linarith : 0 ≤ 1 - k) (truth.nr + op)) (not_le.1 hneg).le
    linarith
  have hP := hp.mild_background hpp hb (by rw [← hk₀]; linarith) truth.nr (low := low) (by
    rw [← hk₀]
    exact hlow.trans (mul_le_mul_of_nonneg_right (pow_le_pow_left₀ (by linarith) (by linarith) _) hlow0))
  rw [← hk₀] at hP
  have hq0' := lossSlope_nonneg (l := 2 * k₀) (by linarith) (by linarith) (truth.nr + op)
  have hqq : lossSlope (2 * k₀) (truth.nr + op) ≤ q := by
    rw [hq]
    unfold lossSlope
    have : 1 / (1 - 2 * k₀) ≤ 1 / (1 - 2 * k) := one_div_le_one_div_of_le (by linarith) (by linarith)
    have := pow_le_pow_left₀ (one_div_nonneg.2 (by linarith)) this (truth.nr + op)
    linarith
  have hq0 : 0 ≤ q := hq0'.trans hqq
  obtain ⟨img, t1, t2, t3, t4⟩ := C55_parallel truth hnr fp pp dp gp ip cp op par hp
  have hdist : img.dist truth ≤ q * truth.total := by
    refine le_trans ?_ (mul_le_mul_of_nonneg_right hqq hpos)
    unfold Image.dist Image.total
    rw [t2, t3, Finset.sum_comm, Finset.sum_comm (s := Finset.range truth.nr), Finset.mul_sum]
    refine Finset.sum_le_sum fun c hc => ?_
    have hc' := Finset.mem_range.1 hc
    refine le_trans (le_of_eq ?_) (hP.small (fun r => truth.px r c) fun r hr => by
      linarith [htruth r hr c hc', mul_nonneg hq0 hpos])
    refine Finset.sum_congr rfl fun r hr => ?_
    rw [t4 r (Finset.mem_range.1 hr) c hc']
  refine ⟨img, t1, fun n => ?_⟩
  obtain ⟨out, o1, o2, o3⟩ := removeCtiPy_parallel hp truth img hnr t1 hP hq0' (hqq.trans hq1)
    (fun r hr c hc => by linarith [htruth r hr c hc]) n
  refine ⟨out, o1, o2, o3.trans ?_⟩
  rw [pow_succ, mul_assoc]
  exact mul_le_mul (pow_le_pow_left₀ hq0' hqq n) hdist (img.dist_nonneg truth) (pow_nonneg hq0 n)

/-- **C58**, the limit: with `q < 1` the error becomes smaller than any bound. -/
theorem C58_limit (hp : ExactObjects fp pp dp gp ip cp op par) (hs : ExactObjects fs ps ds gs is cs os ser)
    (hpp : 1 ≤ pp) (hps : 1 ≤ ps) (truth : Image ℝ) (hnr : 0 < truth.nr) (hnc : 0 < truth.nc) (lp ls q : ℝ)
    (hlp : lp = 2 * (trapCount gp * (pp / fp))) (hls : ls = 2 * (trapCount gs * (ps / fs))) (hlp1 : lp < 1) (hls1 : ls < 1)
    (hq : q = (1 / (1 - lp)) ^ (truth.nr + op) * (1 / (1 - ls)) ^ (truth.nc + os) - 1) (hq0 : 0 ≤ q) (hq1 : q < 1)
    (htruth : ∀ r < truth.nr, ∀ c < truth.nc, q * truth.total ≤ truth.px r c) (hpos : 0 ≤ truth.total)
    (ε : ℝ) (hε : 0 < ε) :
    ∃ img roes N, addCtiPy truth par .all ser .all none = .ok (img, roes) ∧
      ∀ n ≥ N, ∃ out roes', removeCtiPy img n par .all ser .all none = .ok (out, roes') ∧
        ∀ r < truth.nr, ∀ c < truth.nc, |out.px r c - truth.px r c| < ε := by
  obtain ⟨img, h1, h2⟩ := C58_remove_cti hp hs hpp hps truth hnr hnc lp ls q hlp hls hlp1 hls1 hq hq1.le htruth hpos
  obtain ⟨N, hN⟩ := exists_pow_lt_of_lt_one (show 0 < ε / (truth.total + 1) by positivity) hq1
  refine ⟨img, _, N, h1, fun n hn => ?_⟩
  obtain ⟨out, o1, o2, o3⟩ := h2 n
  refine ⟨out, _, o1, fun r hr c hc => ?_⟩
  refine (out.px_le_dist truth (by rw [o2.1]; exact hr) (by rw [o2.2]; exact hc)).trans_lt (o3.trans_lt ?_)
  have h3 : q ^ (n + 1) ≤ q ^ N := pow_le_pow_of_le_one hq0 hq1.le (by omega)
  rw [lt_div_iff₀ (by linarith)] at hN
  have h4 := mul_le_mul_of_nonneg_right h3 hpos
  have h5 : 0 ≤ q ^ N := pow_nonneg hq0 N
  nlinarith

end main

/-- A list of traps is one group. -/
theorem removeCtiPy_trap_list (img : Image ℝ) (n : ℕ) (d : PyDirection) (traps : List Trap) (hne : traps ≠ [])
    (w : Window) (ser : PyDirection) (sw : Window) (tw : Option (List ℕ)) :
    removeCtiPy img n { d with traps := some (.list (traps.map .trap)) } w ser sw tw =
      removeCtiPy img n { d with traps := some (.list ([traps].map .group)) } w ser sw tw := by
  unfold removeCtiPy
  have e : ∀ (x : Image ℝ) (r r' : Option (Roe ℝ)),
      addCtiPy x ⟨d.ccd, r, some (.list (traps.map .trap)), d.express, d.offset⟩ w { ser with roe := r' } sw tw =
        addCtiPy x ⟨d.ccd, r, some (.list ([traps].map .group)), d.express, d.offset⟩ w { ser with roe := r' } sw tw :=
    fun x r r' => addCtiPy_trap_list x ⟨d.ccd, r, none, d.express, d.offset⟩ traps hne w { ser with roe := r' } sw tw
  simp only [e]

/-- **C58** for the HST preset: parallel clocking of an image with a background, with `k` at least the preset's density
times the volume per electron of a cloud of `b` electrons. -/
theorem C58_hst (date : ℝ) (hd : 2452334.5 ≤ date) (truth : Image ℝ) (hnr : 0 < truth.nr) (o : ℕ) (b low k q : ℝ)
    (hb : 0 < b) (hk : hstTotalDensity date * (wellFill 84700 0.478 b / b) ≤ k) (hk1 : 2 * k < 1)
    (hlow : b ≤ (1 - k) ^ (truth.nr + o) * low) (hq : q = (1 / (1 - 2 * k)) ^ (truth.nr + o) - 1) (hq1 : q ≤ 1)
    (htruth : ∀ r < truth.nr, ∀ c < truth.nc, low + q * truth.total ≤ truth.px r c) (hpos : 0 ≤ truth.total) :
    ∃ traps ccd roe img, modelForHstAcs date = .ok (traps, ccd, roe) ∧
      addCtiPy truth ⟨some ccd, some roe, some (.list (traps.map .trap)), 0, o⟩ .all .absent .all none =
        .ok (img, roe, Roe.default) ∧
      ∀ n, ∃ out, removeCtiPy img n ⟨some ccd, some roe, some (.list (traps.map .trap)), 0, o⟩ .all .absent .all none =
          .ok (out, some roe, none) ∧ out.SameShape truth ∧ out.dist truth ≤ q ^ (n + 1) * truth.total := by
  obtain ⟨traps, ccd, h, hne, hx⟩ := hst_exact date hd o
  have hcount : trapCount [traps] = hstTotalDensity date := by
    obtain ⟨d₁, d₂, d₃, τ₁, τ₂, τ₃, ht, -, -, -, -, -, hsum, -⟩ := C42_species date traps ccd _ h
    rw [← hsum, ht]
    simp [trapCount, Trap.density]
    ring
  obtain ⟨img, g1, g2⟩ := C58_background hx (by norm_num) truth hnr b low k q hb (by rw [hcount]; exact hk) hk1 hlow hq
    hq1 htruth hpos
  refine ⟨traps, ccd, _, img, h, ?_, fun n => ?_⟩
  · exact (addCtiPy_trap_list truth ⟨some ccd, some (.standard [1] true true true false), none, 0, o⟩ traps hne .all
      .absent .all none).trans g1
  · obtain ⟨out, o1, o2, o3⟩ := g2 n
    refine ⟨out, ?_, o2, o3⟩
    exact (removeCtiPy_trap_list img n ⟨some ccd, some (.standard [1] true true true false), none, 0, o⟩ traps hne .all
      .absent .all none).trans o1

/-! ### examples -/

/-- Ten rows of 1000 electrons a day after the preset's first date: every iteration of `remove_cti` reduces the bound on
the error at least 200 times. -/
example : ∃ traps ccd roe img, modelForHstAcs 2452335.5 = .ok (traps, ccd, roe) ∧
    addCtiPy ⟨10, 1, fun _ _ => 1000⟩ ⟨some ccd, some roe, some (.list (traps.map .trap)), 0, 0⟩ .all .absent .all none =
      .ok (img, roe, Roe.default) ∧
    ∀ n, ∃ out, removeCtiPy img n ⟨some ccd, some roe, some (.list (traps.map .trap)), 0, 0⟩ .all .absent .all none =
        .ok (out, some roe, none) ∧ out.SameShape ⟨10, 1, fun _ _ => 1000⟩ ∧
      out.dist ⟨10, 1, fun _ _ => 1000⟩ ≤ (1 / 200) ^ (n + 1) * 10000 := by
  have htot : Image.total (⟨10, 1, fun _ _ => 1000⟩ : Image ℝ) = 10000 := by
    simp [Image.total]; norm_num
  have hdens : hstTotalDensity 2452335.5 = 0.01819988 := by unfold hstTotalDensity; norm_num
  have hw := (wellFill_exact (full := 84700) (power := 0.478) (by norm_num) (by norm_num)).1.le_one 100
  obtain ⟨traps, ccd, roe, img, h1, h2, h3⟩ := C58_hst 2452335.5 (by norm_num) (⟨10, 1, fun _ _ => 1000⟩ : Image ℝ)
    (by norm_num) 0 100 101 0.0002 _ (by norm_num) (by rw [hdens]; norm_num; linarith) (by norm_num) (by norm_num) rfl
    (by norm_num) (fun r _ c _ => by rw [htot]; norm_num) (by rw [htot]; norm_num)
  refine ⟨traps, ccd, roe, img, h1, h2, fun n => ?_⟩
  obtain ⟨out, o1, o2, o3⟩ := h3 n
  refine ⟨out, o1, o2, o3.trans ?_⟩
  rw [htot]
  refine mul_le_mul_of_nonneg_right (pow_le_pow_left₀ (by norm_num) (by norm_num) _) (by norm_num)

/-- Two directions, a linear well of 1000 electrons with half a trap per pixel. -/
example (c : CCD) (d : PyDirection) (h : ExactObjects 1000 1 1 [[.instant (1 / 2) 5 false]] false c 0 d) :
    ∃ img, addCtiPy ⟨3, 2, fun _ _ => 100⟩ d .all d .all none =
        .ok (img, .standard [1] true true true false, .standard [1] true true true false) ∧
      ∀ n, ∃ out, removeCtiPy img n d .all d .all none = .ok (out, d.roe, d.roe) ∧
        out.SameShape ⟨3, 2, fun _ _ => 100⟩ ∧ out.dist ⟨3, 2, fun _ _ => 100⟩ ≤
          ((1 / (1 - 1 / 1000)) ^ (3 + 0) * (1 / (1 - 1 / 1000)) ^ (2 + 0) - 1 : ℝ) ^ (n + 1) *
            Image.total ⟨3, 2, fun _ _ => 100⟩ := by
  have htot : Image.total (⟨3, 2, fun _ _ => 100⟩ : Image ℝ) = 600 := by
    simp [Image.total]; norm_num
  have hc : trapCount [[.instant (1 / 2) 5 false]] = 1 / 2 := by simp [trapCount, Trap.density]
  exact C58_remove_cti h h le_rfl le_rfl (⟨3, 2, fun _ _ => 100⟩ : Image ℝ) (by norm_num) (by norm_num) (1 / 1000) (1 / 1000) _
    (by rw [hc]; norm_num) (by rw [hc]; norm_num) (by norm_num) (by norm_num) rfl (by norm_num)
    (fun r _ c _ => by rw [htot]; norm_num) (by rw [htot]; norm_num)

end Arctic
