import Verif.Lemmas.RefContract
import Verif.Props.Converge
import Mathlib.Analysis.SpecificLimits.Basic

/-!
# The iteration of `remove_cti` for any image
-/

set_option linter.unusedSectionVars false
set_option linter.unusedVariables false

namespace Arctic

/-! ### what a pixel can gain -/

theorem Ref.filling_le_totals {dw : ℝ} {ts : List Ref.Traps} (h : ∀ t ∈ ts, t.Reg dw) : Ref.filling ts ≤ Ref.totals ts := by
  unfold Ref.filling Ref.totals
  refine List.sum_le_sum fun t ht => ?_
  have hr := h t ht
  unfold Ref.Traps.filled Ref.Traps.total
  refine Finset.sum_le_sum fun j _ => ?_
  refine mul_le_of_le_one_right (hr.dens j) ?_
  have : ∫ d in (0 : ℝ)..1, t.occ d j ≤ ∫ _ in (0 : ℝ)..1, (1 : ℝ) := by
    refine intervalIntegral.integral_mono_on zero_le_one ?_ intervalIntegrable_const fun d _ => (hr.frac d j).2
    exact integrable_bdd 1 (hr.meas j) (fun d => by rw [abs_of_nonneg (hr.frac d j).1]; exact (hr.frac d j).2) _ _
  simpa using this

/-- Number of passes in which a row takes part. -/
def passCount (passes : List (List (ℕ × ℝ))) (r : ℕ) : ℕ := passes.countP fun todo => decide (r ∈ todo.map Prod.fst)

theorem pass_rise {dw L : ℝ} {f : ℝ → ℝ} (hf : LipFill f L) (R : ℕ) (todo : List (ℕ × ℝ)) :
    ∀ (x : ℕ → ℝ) (ts : List Ref.Traps), Ref.Few dw L ts → (∀ p ∈ todo, p.1 < R ∧ p.2 = 1) → (todo.map Prod.fst).Nodup →
      (∀ r < R, 0 ≤ x r) →
      (∀ r < R, 0 ≤ (todo.foldl (Ref.row f dw) (x, ts)).1 r) ∧
      ∀ r < R, (todo.foldl (Ref.row f dw) (x, ts)).1 r ≤ x r + if r ∈ todo.map Prod.fst then Ref.totals ts else 0 := by
  induction todo with
  | nil => intro x ts _ _ _ hx; exact ⟨hx, fun r hr => by simp⟩
  | cons p todo ih =>
    intro x ts hts hp hnd hx
    obtain ⟨p1, p2⟩ := hp p List.mem_cons_self
    obtain ⟨a1, a2⟩ := hts.after hf (x p.1)
    rw [List.map_cons, List.nodup_cons] at hnd
    rw [List.foldl_cons, Ref.row_eq, if_neg (by rw [p2]; norm_num), p2, mul_one]
    have hT := Ref.totals_nonneg hts.reg
    have hg : Ref.gain f dw ts (x p.1) ≤ Ref.totals ts := by
      rw [hts.gain_eq hf]
      linarith [a1.filling_nonneg, Ref.filling_le_totals hts.reg]
    obtain ⟨i1, i2⟩ := ih (Function.update x p.1 (max 0 (x p.1 + Ref.gain f dw ts (x p.1)))) _ a1
      (fun q hq => hp q (List.mem_cons_of_mem _ hq)) hnd.2 (fun r hr => by
        by_cases h : r = p.1
        · subst h; rw [Function.update_self]; exact le_max_left _ _
        · rw [Function.update_of_ne h]; exact hx r hr)
    refine ⟨i1, fun r hr => (i2 r hr).trans ?_⟩
    rw [a2]
    by_cases h : r = p.1
    · subst h
      rw [Function.update_self, if_neg hnd.1, if_pos (by simp), add_zero]
      exact max_le (by linarith [hx _ hr]) (by linarith)
    · rw [Function.update_of_ne h]
      simp only [List.map_cons, List.mem_cons, h, false_or]
      exact le_rfl

theorem readout_rise {dw L : ℝ} {f : ℝ → ℝ} (hf : LipFill f L) (R : ℕ) (ts : List Ref.Traps) (hts : Ref.Few dw L ts)
    (passes : List (List (ℕ × ℝ))) (hp : OnePasses R passes) (hnd : ∀ todo ∈ passes, (todo.map Prod.fst).Nodup)
    (x : ℕ → ℝ) (hx : ∀ r < R, 0 ≤ x r) :
    ∀ r < R, Ref.readout f dw ts passes x r ≤ x r + Ref.totals ts * passCount passes r := by
  induction passes generalizing x with
  | nil => intro r _; simp [Ref.readout, passCount]
  | cons todo passes ih =>
    intro r hr
    obtain ⟨a1, a2⟩ := pass_rise hf R todo x ts hts (hp todo List.mem_cons_self) (hnd todo List.mem_cons_self) hx
    have i := ih (fun t ht => hp t (List.mem_cons_of_mem _ ht)) (fun t ht => hnd t (List.mem_cons_of_mem _ ht)) _ a1 r hr
    unfold Ref.readout at *
    rw [List.foldl_cons]
    refine i.trans ?_
    have := a2 r hr
    unfold passCount
    rw [List.countP_cons]
    by_cases hm : r ∈ todo.map Prod.fst
    · rw [if_pos hm] at this
      simp only [hm, decide_true, if_true]
      push_cast
      linarith
    · rw [if_neg hm] at this
      simp only [hm, decide_false]
      push_cast
      simp only [Bool.false_eq_true, if_false, add_zero]
      linarith

theorem passCount_all (n o r : ℕ) (hr : r < n) : passCount (Ref.allPasses n o) r = r + o + 1 := by
  unfold passCount Ref.allPasses
  rw [List.countP_map, List.countP_eq_length_filter]
  have e : (List.range (n + o)).filter ((fun todo : List (ℕ × ℝ) => decide (r ∈ todo.map Prod.fst)) ∘ fun k =>
      ((List.range n).filter fun r => k ≤ r + o).map fun r => (r, (1 : ℝ))) =
      (List.range (n + o)).filter fun k => decide (k < r + o + 1) := by
    refine List.filter_congr fun k _ => ?_
    simp only [Function.comp_apply, List.map_map]
    congr 1
    simp only [List.mem_map, List.mem_filter, List.mem_range, Function.comp_apply, decide_eq_true_eq, eq_iff_iff]
    constructor
    · rintro ⟨a, ⟨-, h⟩, rfl⟩; omega
    · intro h; exact ⟨r, ⟨hr, by omega⟩, rfl⟩
  rw [e]
  have e2 : ((List.range (n + o)).filter fun k => decide (k < r + o + 1)).length = (List.range (r + o + 1)).length := by
    congr 1
    have : n + o = (r + o + 1) + (n - (r + 1)) := by omega
    rw [this, List.range_add, List.filter_append, List.filter_eq_self.2 (by simp), List.filter_eq_nil_iff.2 (by simp; omega),
      List.append_nil]
  rw [e2, List.length_range]

/-! ### maps of images -/

/-- Sum of all differences. -/
noncomputable def gridDist (nr nc : ℕ) (x y : ℕ → ℕ → ℝ) : ℝ :=
  ∑ r ∈ Finset.range nr, ∑ c ∈ Finset.range nc, |x r c - y r c|

noncomputable def gridTotal (nr nc : ℕ) (x : ℕ → ℕ → ℝ) : ℝ := ∑ r ∈ Finset.range nr, ∑ c ∈ Finset.range nc, x r c

/-- At least `low` everywhere. -/
def AtLeast (nr nc : ℕ) (low : ℝ) (x : ℕ → ℕ → ℝ) : Prop := ∀ r < nr, ∀ c < nc, low ≤ x r c

/-- The same numbers in the image. -/
def SameGrid (nr nc : ℕ) (x y : ℕ → ℕ → ℝ) : Prop := ∀ r < nr, ∀ c < nc, x r c = y r c

/-- On images of at least `low` electrons everywhere the change has slope `q`, is at most `q` times the total charge and
raises pixels by at most `up`. -/
structure MildMap (nr nc : ℕ) (low q : ℝ) (up : ℕ → ℕ → ℝ) (F : (ℕ → ℕ → ℝ) → ℕ → ℕ → ℝ) : Prop where
  lip : ∀ x y, AtLeast nr nc low x → AtLeast nr nc low y →
    ∑ r ∈ Finset.range nr, ∑ c ∈ Finset.range nc, |(F x r c - x r c) - (F y r c - y r c)| ≤ q * gridDist nr nc x y
  small : ∀ x, AtLeast nr nc low x → gridDist nr nc (F x) x ≤ q * gridTotal nr nc x
  rise : ∀ x, AtLeast nr nc low x → ∀ r < nr, ∀ c < nc, F x r c ≤ x r c + up r c

/-- The iteration of `remove_cti`. -/
noncomputable def removeSeq (F : (ℕ → ℕ → ℝ) → ℕ → ℕ → ℝ) (i : ℕ → ℕ → ℝ) : ℕ → ℕ → ℕ → ℝ
  | 0 => i
  | n + 1 => fun r c => removeSeq F i n r c + (i r c - F (removeSeq F i n) r c)

section grid
variable {nr nc : ℕ} {low q : ℝ} {up : ℕ → ℕ → ℝ} {F : (ℕ → ℕ → ℝ) → ℕ → ℕ → ℝ} {i j x y : ℕ → ℕ → ℝ}

theorem gridDist_nonneg : 0 ≤ gridDist nr nc x y := Finset.sum_nonneg fun _ _ => Finset.sum_nonneg fun _ _ => abs_nonneg _

theorem gridDist_mono {f g : ℕ → ℕ → ℝ} (h : ∀ r < nr, ∀ c < nc, f r c ≤ g r c) :
    ∑ r ∈ Finset.range nr, ∑ c ∈ Finset.range nc, f r c ≤ ∑ r ∈ Finset.range nr, ∑ c ∈ Finset.range nc, g r c :=
  Finset.sum_le_sum fun r hr => Finset.sum_le_sum fun c hc => h r (Finset.mem_range.1 hr) c (Finset.mem_range.1 hc)

theorem gridDist_comm : gridDist nr nc x y = gridDist nr nc y x := by
  unfold gridDist
  simp only [abs_sub_comm]

theorem px_le_gridDist {r c : ℕ} (hr : r < nr) (hc : c < nc) : |x r c - y r c| ≤ gridDist nr nc x y := by
  unfold gridDist
  refine le_trans ?_ (Finset.single_le_sum (f := fun r => ∑ c ∈ Finset.range nc, |x r c - y r c|)
    (fun r _ => Finset.sum_nonneg fun c _ => abs_nonneg _) (Finset.mem_range.2 hr))
  exact Finset.single_le_sum (f := fun c => |x r c - y r c|) (fun c _ => abs_nonneg _) (Finset.mem_range.2 hc)

theorem sameGrid_of_dist (h : gridDist nr nc x y ≤ 0) : SameGrid nr nc x y := fun r hr c hc => by
  have := abs_nonpos_iff.1 ((px_le_gridDist hr hc).trans h)
  linarith

theorem gridDist_self_of (h : SameGrid nr nc x y) : gridDist nr nc x y = 0 := by
  unfold gridDist
  refine Finset.sum_eq_zero fun r hr => Finset.sum_eq_zero fun c hc => ?_
  rw [h r (Finset.mem_range.1 hr) c (Finset.mem_range.1 hc), sub_self, abs_zero]

theorem gridDist_triangle (z : ℕ → ℕ → ℝ) : gridDist nr nc x y ≤ gridDist nr nc x z + gridDist nr nc z y := by
  unfold gridDist
  rw [← Finset.sum_add_distrib]
  refine Finset.sum_le_sum fun r _ => ?_
  rw [← Finset.sum_add_distrib]
  exact Finset.sum_le_sum fun c _ => abs_sub_le _ _ _

theorem AtLeast.of_same (h : SameGrid nr nc x y) (hx : AtLeast nr nc low x) : AtLeast nr nc low y := fun r hr c hc => by
  rw [← h r hr c hc]; exact hx r hr c hc

/-- What is outside the image does not matter. -/
theorem MildMap.congr (h : MildMap nr nc low q up F) (hs : SameGrid nr nc x y) (hx : AtLeast nr nc low x) :
    SameGrid nr nc (F x) (F y) := by
  have hy := hx.of_same hs
  have h1 := h.lip x y hx hy
  rw [gridDist_self_of hs, mul_zero] at h1
  intro r hr c hc
  have h2 : |(F x r c - x r c) - (F y r c - y r c)| ≤ 0 := by
    refine le_trans ?_ h1
    exact (px_le_gridDist (nr := nr) (nc := nc) (x := fun r c => F x r c - x r c) (y := fun r c => F y r c - y r c) hr hc)
  have := abs_nonpos_iff.1 h2
  have := hs r hr c hc
  linarith

/-- Different images stay different. -/
theorem MildMap.apart (h : MildMap nr nc low q up F) (hx : AtLeast nr nc low x) (hy : AtLeast nr nc low y) :
    (1 - q) * gridDist nr nc x y ≤ gridDist nr nc (F x) (F y) := by
  have h1 := h.lip x y hx hy
  have h2 : gridDist nr nc x y ≤
      ∑ r ∈ Finset.range nr, ∑ c ∈ Finset.range nc, |(F x r c - x r c) - (F y r c - y r c)| + gridDist nr nc (F x) (F y) := by
    unfold gridDist
    rw [← Finset.sum_add_distrib]
    refine Finset.sum_le_sum fun r _ => ?_
    rw [← Finset.sum_add_distrib]
    refine Finset.sum_le_sum fun c _ => ?_
    have := abs_sub (F x r c - F y r c) ((F x r c - x r c) - (F y r c - y r c))
    rw [show x r c - y r c = (F x r c - F y r c) - ((F x r c - x r c) - (F y r c - y r c)) by ring]
    linarith
  linarith

theorem MildMap.near (h : MildMap nr nc low q up F) (hx : AtLeast nr nc low x) (hy : AtLeast nr nc low y) :
    gridDist nr nc (F x) (F y) ≤ (1 + q) * gridDist nr nc x y := by
  have h1 := h.lip x y hx hy
  have h2 : gridDist nr nc (F x) (F y) ≤
      ∑ r ∈ Finset.range nr, ∑ c ∈ Finset.range nc, |(F x r c - x r c) - (F y r c - y r c)| + gridDist nr nc x y := by
    unfold gridDist
    rw [← Finset.sum_add_distrib]
    refine Finset.sum_le_sum fun r _ => ?_
    rw [← Finset.sum_add_distrib]
    refine Finset.sum_le_sum fun c _ => ?_
    rw [show F x r c - F y r c = ((F x r c - x r c) - (F y r c - y r c)) + (x r c - y r c) by ring]
    exact abs_add_le _ _
  linarith

/-- The iteration stays above `low`. -/
theorem removeSeq_low (h : MildMap nr nc low q up F) (hup : ∀ r < nr, ∀ c < nc, 0 ≤ up r c)
    (hi : ∀ r < nr, ∀ c < nc, low + up r c ≤ i r c) (n : ℕ) : AtLeast nr nc low (removeSeq F i n) := by
  induction n with
  | zero => intro r hr c hc; linarith [hi r hr c hc, hup r hr c hc, show removeSeq F i 0 r c = i r c from rfl]
  | succ n ih =>
    intro r hr c hc
    have := h.rise _ ih r hr c hc
    have := hi r hr c hc
    change low ≤ removeSeq F i n r c + (i r c - F (removeSeq F i n) r c)
    linarith

/-- Noise is amplified by at most the geometric sum. -/
theorem removeSeq_noise (h : MildMap nr nc low q up F) (hq : 0 ≤ q) (hup : ∀ r < nr, ∀ c < nc, 0 ≤ up r c)
    (hi : ∀ r < nr, ∀ c < nc, low + up r c ≤ i r c) (hj : ∀ r < nr, ∀ c < nc, low + up r c ≤ j r c) (n : ℕ) :
    gridDist nr nc (removeSeq F i n) (removeSeq F j n) ≤ (∑ k ∈ Finset.range (n + 1), q ^ k) * gridDist nr nc i j := by
  induction n with
  | zero => simp [removeSeq]
  | succ n ih =>
    have h1 := h.lip _ _ (removeSeq_low h hup hi n) (removeSeq_low h hup hj n)
    have h2 : gridDist nr nc (removeSeq F i (n + 1)) (removeSeq F j (n + 1)) ≤ gridDist nr nc i j +
        ∑ r ∈ Finset.range nr, ∑ c ∈ Finset.range nc, |(F (removeSeq F i n) r c - removeSeq F i n r c) -
          (F (removeSeq F j n) r c - removeSeq F j n r c)| := by
      unfold gridDist
      rw [← Finset.sum_add_distrib]
      refine Finset.sum_le_sum fun r _ => ?_
      rw [← Finset.sum_add_distrib]
      refine Finset.sum_le_sum fun c _ => ?_
      change |removeSeq F i n r c + (i r c - F (removeSeq F i n) r c) -
        (removeSeq F j n r c + (j r c - F (removeSeq F j n) r c))| ≤ _
      have := abs_sub (i r c - j r c) ((F (removeSeq F i n) r c - removeSeq F i n r c) -
          (F (removeSeq F j n) r c - removeSeq F j n r c))
      rw [show removeSeq F i n r c + (i r c - F (removeSeq F i n) r c) -
        (removeSeq F j n r c + (j r c - F (removeSeq F j n) r c)) = (i r c - j r c) -
          ((F (removeSeq F i n) r c - removeSeq F i n r c) - (F (removeSeq F j n) r c - removeSeq F j n r c)) by ring]
      linarith
    have h3 := mul_le_mul_of_nonneg_left ih hq
    have e : ∑ k ∈ Finset.range (n + 1 + 1), q ^ k = 1 + q * ∑ k ∈ Finset.range (n + 1), q ^ k := by
      rw [Finset.sum_range_succ', Finset.mul_sum]
      simp only [pow_succ, pow_zero]
      rw [add_comm]
      congr 1
      exact Finset.sum_congr rfl fun k _ => by ring
    rw [e]
    linarith

/-- Consecutive iterations. -/
theorem removeSeq_step (h : MildMap nr nc low q up F) (hq : 0 ≤ q) (hup : ∀ r < nr, ∀ c < nc, 0 ≤ up r c)
    (hi : ∀ r < nr, ∀ c < nc, low + up r c ≤ i r c) (n : ℕ) :
    gridDist nr nc (removeSeq F i n) (removeSeq F i (n + 1)) ≤ q ^ (n + 1) * gridTotal nr nc i := by
  induction n with
  | zero =>
    refine le_trans (le_of_eq ?_) ((h.small i (removeSeq_low h hup hi 0)).trans (by rw [zero_add, pow_one]))
    unfold gridDist
    refine Finset.sum_congr rfl fun r _ => Finset.sum_congr rfl fun c _ => ?_
    congr 1
    change i r c - (i r c + (i r c - F i r c)) = _
    ring
  | succ n ih =>
    have h1 := h.lip _ _ (removeSeq_low h hup hi n) (removeSeq_low h hup hi (n + 1))
    have h2 : gridDist nr nc (removeSeq F i (n + 1)) (removeSeq F i (n + 1 + 1)) =
        ∑ r ∈ Finset.range nr, ∑ c ∈ Finset.range nc, |(F (removeSeq F i n) r c - removeSeq F i n r c) -
          (F (removeSeq F i (n + 1)) r c - removeSeq F i (n + 1) r c)| := by
      unfold gridDist
      refine Finset.sum_congr rfl fun r _ => Finset.sum_congr rfl fun c _ => ?_
      rw [← abs_neg]
      congr 1
      change -((removeSeq F i n r c + (i r c - F (removeSeq F i n) r c)) -
        (removeSeq F i (n + 1) r c + (i r c - F (removeSeq F i (n + 1)) r c))) = _
      ring
    rw [h2]
    have h3 := mul_le_mul_of_nonneg_left ih hq
    refine h1.trans (h3.trans (le_of_eq ?_))
    ring

/-- The iteration converges to an image from which the map makes the given one. -/
theorem removeSeq_limit (h : MildMap nr nc low q up F) (hq : 0 ≤ q) (hq1 : q < 1) (hup : ∀ r < nr, ∀ c < nc, 0 ≤ up r c)
    (hi : ∀ r < nr, ∀ c < nc, low + up r c ≤ i r c) :
    ∃ t, AtLeast nr nc low t ∧ SameGrid nr nc (F t) i ∧
      ∀ n, gridDist nr nc (removeSeq F i n) t ≤ q ^ (n + 1) / (1 - q) * gridTotal nr nc i := by
  have step : ∀ r < nr, ∀ c < nc, ∀ n,
      dist (removeSeq F i n r c) (removeSeq F i (n + 1) r c) ≤ (q * gridTotal nr nc i) * q ^ n := by
    intro r hr c hc n
    rw [Real.dist_eq]
    refine (px_le_gridDist hr hc).trans ((removeSeq_step h hq hup hi n).trans (le_of_eq ?_))
    ring
  have lim : ∀ r c, ∃ l : ℝ, r < nr → c < nc → Filter.Tendsto (fun n => removeSeq F i n r c) Filter.atTop (nhds l) := by
    intro r c
    by_cases hr : r < nr
    · by_cases hc : c < nc
      · obtain ⟨l, hl⟩ := cauchySeq_tendsto_of_complete (cauchySeq_of_le_geometric q _ hq1 (step r hr c hc))
        exact ⟨l, fun _ _ => hl⟩
      · exact ⟨0, fun _ h => absurd h hc⟩
    · exact ⟨0, fun h => absurd h hr⟩
  choose t ht using lim
  have htl : AtLeast nr nc low t := fun r hr c hc =>
    ge_of_tendsto' (ht r c hr hc) fun n => removeSeq_low h hup hi n r hr c hc
  have hdt : ∀ n, Filter.Tendsto (fun m => gridDist nr nc (removeSeq F i n) (removeSeq F i m)) Filter.atTop
      (nhds (gridDist nr nc (removeSeq F i n) t)) := by
    intro n
    unfold gridDist
    refine tendsto_finsetSum _ fun r hr => tendsto_finsetSum _ fun c hc => ?_
    exact (tendsto_const_nhds.sub (ht r c (Finset.mem_range.1 hr) (Finset.mem_range.1 hc))).abs
  have tot : 0 ≤ q * gridTotal nr nc i := gridDist_nonneg.trans (h.small i (removeSeq_low h hup hi 0))
  have far : ∀ n k, gridDist nr nc (removeSeq F i n) (removeSeq F i (n + k)) ≤
      (∑ m ∈ Finset.range k, q ^ m) * (q ^ n * (q * gridTotal nr nc i)) := by
    intro n k
    induction k with
    | zero => simp [gridDist]
    | succ k ih =>
      have h1 := gridDist_triangle (nr := nr) (nc := nc) (x := removeSeq F i n) (y := removeSeq F i (n + (k + 1)))
        (removeSeq F i (n + k))
      have h2 := removeSeq_step h hq hup hi (n + k)
      rw [Finset.sum_range_succ]
      have e : q ^ (n + k + 1) * gridTotal nr nc i = q ^ k * (q ^ n * (q * gridTotal nr nc i)) := by ring
      rw [e] at h2
      rw [add_mul]
      exact h1.trans (add_le_add ih h2)
  have near : ∀ n, gridDist nr nc (removeSeq F i n) t ≤ q ^ (n + 1) / (1 - q) * gridTotal nr nc i := by
    intro n
    refine le_of_tendsto (hdt n) ?_
    filter_upwards [Filter.eventually_ge_atTop n] with m hm
    obtain ⟨k, rfl⟩ := Nat.exists_eq_add_of_le hm
    refine (far n k).trans ?_
    have h1 : ∑ m ∈ Finset.range k, q ^ m ≤ 1 / (1 - q) := by
      have e := geom_sum_mul_neg q k
      rw [le_div_iff₀ (by linarith), e]
      linarith [pow_nonneg hq k]
    refine (mul_le_mul_of_nonneg_right h1 (mul_nonneg (pow_nonneg hq n) tot)).trans (le_of_eq ?_)
    rw [pow_succ]
    ring
  refine ⟨t, htl, ?_, near⟩
  refine sameGrid_of_dist ?_
  have key : ∀ n, gridDist nr nc (F t) i ≤ (1 + q) * (q ^ (n + 1) / (1 - q) * gridTotal nr nc i) +
      q ^ (n + 1) * gridTotal nr nc i := by
    intro n
    have h1 := h.near htl (removeSeq_low h hup hi n)
    have h2 := gridDist_triangle (nr := nr) (nc := nc) (x := F t) (y := i) (F (removeSeq F i n))
    have h3 : gridDist nr nc (F (removeSeq F i n)) i = gridDist nr nc (removeSeq F i n) (removeSeq F i (n + 1)) := by
      unfold gridDist
      refine Finset.sum_congr rfl fun r _ => Finset.sum_congr rfl fun c _ => ?_
      congr 1
      change _ = removeSeq F i n r c - (removeSeq F i n r c + (i r c - F (removeSeq F i n) r c))
      ring
    rw [h3] at h2
    rw [gridDist_comm (x := t)] at h1
    have h4 := mul_le_mul_of_nonneg_left (near n) (by linarith : 0 ≤ 1 + q)
    linarith [removeSeq_step h hq hup hi n]
  have lim0 : Filter.Tendsto (fun n : ℕ => (1 + q) * (q ^ (n + 1) / (1 - q) * gridTotal nr nc i) +
      q ^ (n + 1) * gridTotal nr nc i) Filter.atTop (nhds ((1 + q) * (0 / (1 - q) * gridTotal nr nc i) +
      0 * gridTotal nr nc i)) := by
    have p : Filter.Tendsto (fun n : ℕ => q ^ (n + 1)) Filter.atTop (nhds 0) :=
      (tendsto_pow_atTop_nhds_zero_of_lt_one hq hq1).comp (Filter.tendsto_add_atTop_nat 1)
    exact (((p.div_const _).mul_const _).const_mul _).add (p.mul_const _)
  have := ge_of_tendsto' lim0 key
  simpa using this

/-- The code's loop computes the iteration, if adding CTI follows the map for images of at least `low` electrons. -/
theorem removeIter_above {S : Type} (add : Image ℝ → S → Except Err (Image ℝ × S)) (s : S) (img : Image ℝ)
    (h : MildMap img.nr img.nc low q up F) (hup : ∀ r < img.nr, ∀ c < img.nc, 0 ≤ up r c)
    (hi : ∀ r < img.nr, ∀ c < img.nc, low + up r c ≤ img.px r c)
    (hadd : ∀ x : Image ℝ, x.SameShape img → AtLeast img.nr img.nc low x.px → ∃ y, add x s = .ok (y, s) ∧ y.SameShape img ∧
      SameGrid img.nr img.nc y.px (F x.px)) (n : ℕ) :
    ∃ out, removeIter add img n (img, s) = .ok (out, s) ∧ out.SameShape img ∧
      SameGrid img.nr img.nc out.px (removeSeq F img.px n) := by
  induction n with
  | zero => exact ⟨img, rfl, ⟨rfl, rfl⟩, fun _ _ _ _ => rfl⟩
  | succ n ih =>
    obtain ⟨x, h1, h2, h3⟩ := ih
    have h0 := removeSeq_low h hup hi n
    obtain ⟨y, g1, g2, g3⟩ := hadd x h2 (h0.of_same fun r hr c hc => (h3 r hr c hc).symm)
    refine ⟨improve img x y, ?_, h2, fun r hr c hc => ?_⟩
    · rw [removeIter_succ, h1]
      simp only [bind, Except.bind, g1]
    · have h4 := removeSeq_low h hup hi n
      have h5 := h.congr (x := removeSeq F img.px n) (y := x.px) (fun r hr c hc => (h3 r hr c hc).symm) h4
      change x.px r c + (img.px r c - y.px r c) = removeSeq F img.px n r c + (img.px r c - F (removeSeq F img.px n) r c)
      rw [h3 r hr c hc, g3 r hr c hc, ← h5 r hr c hc]

/-- The code's loop computes the iteration. -/
theorem removeIter_seq {S : Type} (add : Image ℝ → S → Except Err (Image ℝ × S)) (s : S) (img : Image ℝ)
    (h : MildMap img.nr img.nc low q up F) (hup : ∀ r < img.nr, ∀ c < img.nc, 0 ≤ up r c)
    (hi : ∀ r < img.nr, ∀ c < img.nc, low + up r c ≤ img.px r c)
    (hadd : ∀ x : Image ℝ, x.SameShape img → ∃ y, add x s = .ok (y, s) ∧ y.SameShape img ∧
      SameGrid img.nr img.nc y.px (F x.px)) (n : ℕ) :
    ∃ out, removeIter add img n (img, s) = .ok (out, s) ∧ out.SameShape img ∧
      SameGrid img.nr img.nc out.px (removeSeq F img.px n) :=
  removeIter_above add s img h hup hi (fun x hx _ => hadd x hx) n

end grid

end Arctic
