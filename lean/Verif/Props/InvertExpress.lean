import Verif.Props.Invert
import Verif.Props.ExpressAccuracy

/-!
# C99 — CTI added and removed with `express` can be undone, however coarse `express` is
-/

set_option linter.unusedSectionVars false
set_option linter.unusedVariables false

namespace Arctic

open Finset (range)

/-! ## Columns -/

section slots
variable {n o : ℕ} {s : ℝ} {G : ℕ → (ℕ → ℝ) → ℕ → ℝ}

theorem slots_lip (hG : Rates n o s G) (ps : List Slot) (hp : ∀ p ∈ ps, p.Ok n s) (x y : ℕ → ℝ) (hx : ∀ r < n, 0 ≤ x r)
    (hy : ∀ r < n, 0 ≤ y r) :
    ∑ r ∈ range n, |(runSlots G ps x r - x r) - (runSlots G ps y r - y r)| ≤
      (Real.exp (slotLoad s ps) - 1) * ∑ r ∈ range n, |x r - y r| := by
  induction ps generalizing x y with
  | nil => simp [runSlots, slotLoad]
  | cons p ps ih =>
    have hp1 := hp p List.mem_cons_self
    have hp' : ∀ q ∈ ps, q.Ok n s := fun q hq => hp q (List.mem_cons_of_mem _ hq)
    have h1 := ih hp' _ _ (hp1.run_nonneg hG x hx) (hp1.run_nonneg hG y hy)
    have h2 := hp1.sum_le fun r => G p.k x r - G p.k y r
    have h3 := mul_le_mul_of_nonneg_left (hG.lip p.k x y hx hy) hp1.top
    have e : slotLoad s (p :: ps) = p.top * s + slotLoad s ps := by simp [slotLoad]
    set D := ∑ r ∈ range n, |x r - y r| with hD
    have hD0 : 0 ≤ D := Finset.sum_nonneg fun _ _ => abs_nonneg _
    have h4 : ∑ r ∈ range n, |p.run G x r - p.run G y r| ≤ (1 + p.top * s) * D := by
      have : ∑ r ∈ range n, |p.run G x r - p.run G y r| ≤
          D + ∑ r ∈ range n, |p.mult r * (G p.k x r - G p.k y r)| := by
        rw [hD, ← Finset.sum_add_distrib]
        refine Finset.sum_le_sum fun r _ => ?_
        rw [show p.run G x r - p.run G y r = (x r - y r) + p.mult r * (G p.k x r - G p.k y r) by
          simp only [Slot.run]; ring]
        exact abs_add_le _ _
      linarith
    have h5 : ∑ r ∈ range n, |(runSlots G (p :: ps) x r - x r) - (runSlots G (p :: ps) y r - y r)| ≤
        ∑ r ∈ range n, |(runSlots G ps (p.run G x) r - p.run G x r) - (runSlots G ps (p.run G y) r - p.run G y r)| +
          ∑ r ∈ range n, |p.mult r * (G p.k x r - G p.k y r)| := by
      rw [← Finset.sum_add_distrib]
      refine Finset.sum_le_sum fun r _ => ?_
      rw [show (runSlots G (p :: ps) x r - x r) - (runSlots G (p :: ps) y r - y r) =
        ((runSlots G ps (p.run G x) r - p.run G x r) - (runSlots G ps (p.run G y) r - p.run G y r)) +
          p.mult r * (G p.k x r - G p.k y r) by
        simp only [runSlots, List.foldl_cons, Slot.run]; ring]
      exact abs_add_le _ _
    have hE : 0 ≤ Real.exp (slotLoad s ps) - 1 := by
      have := Real.add_one_le_exp (slotLoad s ps)
      have := slotLoad_nonneg hG.slope ps hp'
      linarith
    have h6 := mul_le_mul_of_nonneg_left h4 hE
    have h7 := mul_le_mul_of_nonneg_right (Real.add_one_le_exp (p.top * s)) (Real.exp_pos (slotLoad s ps)).le
    have h8 := mul_le_mul_of_nonneg_right h7 hD0
    rw [e, Real.exp_add]
    nlinarith

theorem slots_small (hG : Rates n o s G) (ps : List Slot) (hp : ∀ p ∈ ps, p.Ok n s) (x : ℕ → ℝ) (hx : ∀ r < n, 0 ≤ x r) :
    ∑ r ∈ range n, |runSlots G ps x r - x r| ≤ (Real.exp (slotLoad s ps) - 1) * ∑ r ∈ range n, x r := by
  induction ps generalizing x with
  | nil => simp [runSlots, slotLoad]
  | cons p ps ih =>
    have hp1 := hp p List.mem_cons_self
    have hp' : ∀ q ∈ ps, q.Ok n s := fun q hq => hp q (List.mem_cons_of_mem _ hq)
    have h1 := ih hp' _ (hp1.run_nonneg hG x hx)
    obtain ⟨h2, h3⟩ := hp1.run_total hG x hx
    have e : slotLoad s (p :: ps) = p.top * s + slotLoad s ps := by simp [slotLoad]
    have hX : 0 ≤ ∑ r ∈ range n, x r := Finset.sum_nonneg fun r hr => hx r (Finset.mem_range.1 hr)
    have h5 : ∑ r ∈ range n, |runSlots G (p :: ps) x r - x r| ≤
        ∑ r ∈ range n, |runSlots G ps (p.run G x) r - p.run G x r| + ∑ r ∈ range n, |p.run G x r - x r| := by
      rw [← Finset.sum_add_distrib]
      refine Finset.sum_le_sum fun r _ => ?_
      rw [show runSlots G (p :: ps) x r - x r =
        (runSlots G ps (p.run G x) r - p.run G x r) + (p.run G x r - x r) by
        simp only [runSlots, List.foldl_cons]; ring]
      exact abs_add_le _ _
    have hE : 0 ≤ Real.exp (slotLoad s ps) - 1 := by
      have := Real.add_one_le_exp (slotLoad s ps)
      have := slotLoad_nonneg hG.slope ps hp'
      linarith
    have h6 := mul_le_mul_of_nonneg_left h3 hE
    have h7 := mul_le_mul_of_nonneg_right (Real.add_one_le_exp (p.top * s)) (Real.exp_pos (slotLoad s ps)).le
    have h8 := mul_le_mul_of_nonneg_right h7 hX
    rw [e, Real.exp_add]
    nlinarith

theorem slots_rise (hG : Rates n o s G) {T : ℝ} (hT : ∀ k x, (∀ r < n, 0 ≤ x r) → ∀ r < n, G k x r ≤ T) (ps : List Slot)
    (hp : ∀ p ∈ ps, p.Ok n s) (x : ℕ → ℝ) (hx : ∀ r < n, 0 ≤ x r) :
    ∀ r < n, runSlots G ps x r ≤ x r + T * (ps.map fun p => p.mult r).sum := by
  induction ps generalizing x with
  | nil => intro r _; simp [runSlots]
  | cons p ps ih =>
    intro r hr
    have hp1 := hp p List.mem_cons_self
    have h1 := ih (fun q hq => hp q (List.mem_cons_of_mem _ hq)) _ (hp1.run_nonneg hG x hx) r hr
    have h2 := mul_le_mul_of_nonneg_left (hT p.k x hx r hr) (hp1.nonneg r hr)
    have e : runSlots G (p :: ps) x r = runSlots G ps (p.run G x) r := rfl
    rw [List.map_cons, List.sum_cons, e]
    refine h1.trans ?_
    simp only [Slot.run]
    linarith

end slots

theorem gains_high {f : ℝ → ℝ} {dw L : ℝ} (hf : LipFill f L) (R : List ℕ) (x : ℕ → ℝ) (ts : List Ref.Traps)
    (hts : Ref.Few dw L ts) (r : ℕ) : Ref.gains f dw R x ts r ≤ Ref.totals ts := by
  induction R generalizing ts with
  | nil => exact Ref.totals_nonneg hts.reg
  | cons p R ih =>
    obtain ⟨a1, a2⟩ := hts.after hf (x p)
    rw [Ref.gains]
    split
    · rw [hts.gain_eq hf]
      linarith [a1.filling_nonneg, Ref.filling_le_totals hts.reg]
    · have := ih _ a1
      rwa [a2] at this

/-- The multipliers of the slots are those of the matrix. -/
theorem Fits.mult_eq {F : Mat ℝ} {n o k : ℕ} {p : Slot} (h : Fits n o (matTodo F n o k) p) {r : ℕ}
    (hr : r < n) (hF : 0 ≤ F.e k (r + o)) : p.mult r = F.e k (r + o) := by
  obtain ⟨P, h1, h2, -⟩ := h
  unfold matTodo at h1
  by_cases hpos : F.e k (r + o) > 0
  · have : (r, F.e k (r + o)) ∈ ((List.range n).filter P).map fun r => (r, p.mult r) := by
      rw [← h1]
      exact List.mem_map.2 ⟨r, List.mem_filter.2 ⟨List.mem_range.2 hr, by simpa using hpos⟩, rfl⟩
    obtain ⟨a, -, e⟩ := List.mem_map.1 this
    injection e with e1 e2
    subst e1
    exact e2
  · have hz : F.e k (r + o) = 0 := le_antisymm (not_lt.1 hpos) hF
    rw [hz]
    refine h2 r hr fun hP => ?_
    have : (r, p.mult r) ∈ ((List.range n).filter fun r => F.e k (r + o) > 0).map fun r => (r, F.e k (r + o)) := by
      rw [h1]
      exact List.mem_map.2 ⟨r, List.mem_filter.2 ⟨List.mem_range.2 hr, hP⟩, rfl⟩
    obtain ⟨a, ha, e⟩ := List.mem_map.1 this
    injection e with e1 e2
    subst e1
    have := (List.mem_filter.1 ha).2
    simp only [decide_eq_true_eq] at this
    exact hpos this

theorem express_mild {f g : ℝ → ℝ} {dw L b low : ℝ} (hg : LipFill g L) (hb : 0 ≤ b) (hfg : ∀ z, b ≤ z → f z = g z)
    (hlow : 2 * b ≤ low) {ts : List Ref.Traps} (hts : Ref.Few dw L ts)
    (hsp : Ref.Spent dw ts ts) (h0 : Ref.filling ts = 0) (hl : 2 * (Ref.totals ts * L) < 1) (i : Bool) (n e o : ℕ) (hn : 0 < n)
    (hne : effectiveExpress e (n + o) + 1 ≠ n)
    (h3 : 3 * ((n + o : ℕ) * passSlope 1 (2 * (Ref.totals ts * L))) ≤ 1) :
    Mild n low b (Real.exp (3 * ((n + o : ℕ) * passSlope 1 (2 * (Ref.totals ts * L)))) - 1)
      (Ref.readout f dw ts ((List.range (expressFull (K := ℝ) true i n e o).nr).map (matTodo (expressFull true i n e o) n o))) ∧
    ∀ x, (∀ r < n, low ≤ x r) → ∀ r < n,
      Ref.readout f dw ts ((List.range (expressFull (K := ℝ) true i n e o).nr).map (matTodo (expressFull true i n e o) n o)) x r ≤
        x r + Ref.totals ts * ((r + o + 1 : ℕ) : ℝ) := by
  have hG := unitPass_rates hg ts hts hsp h0 hl n o
  have hk := mul_nonneg (Ref.totals_nonneg hts.reg) hts.slope
  have hs2 : 2 * (Ref.totals ts * L) ≤ passSlope 1 (2 * (Ref.totals ts * L)) := by
    unfold passSlope
    rw [one_mul, le_div_iff₀ (by linarith)]
    nlinarith
  set s := passSlope 1 (2 * (Ref.totals ts * L)) with hs
  set G := Ref.unitPass g dw ts n o with hGdef
  have hs0 := hG.slope
  obtain ⟨slot, c1, c2, -⟩ := express_slots i n e o hn hne hs0 h3
  have hcol : ∀ r < n, ((List.range (expressFull (K := ℝ) true i n e o).nr).map fun k => (slot k).mult r).sum =
      ((r + o + 1 : ℕ) : ℝ) := by
    intro r hr
    have e1 : ((List.range (expressFull (K := ℝ) true i n e o).nr).map fun k => (slot k).mult r) =
        (List.range (expressFull (K := ℝ) true i n e o).nr).map fun k => (expressFull (K := ℝ) true i n e o).e k (r + o) :=
      List.map_congr_left fun k hk => (c1 k hk).1.mult_eq hr
        (expressFull_nonneg true i n e o k (r + o) hn (by omega) (by rintro ⟨-, h⟩; exact hne h))
    have e2 := sum_expressFull (K := ℝ) true i n e o (r + o) hn (by omega) (by rintro ⟨-, h⟩; exact hne h)
    rw [e1, ← List.sum_toFinset _ List.nodup_range, List.toFinset_range, e2]
    push_cast
    ring
  set F := expressFull (K := ℝ) true i n e o with hF
  have expOk' : ∀ p ∈ (List.range F.nr).map slot, p.Ok n s := by
    intro p hp
    obtain ⟨k, hk, rfl⟩ := List.mem_map.1 hp
    exact (c1 k hk).2
  have low0 : 0 ≤ low := by linarith
  have nonneg : ∀ x : ℕ → ℝ, (∀ r < n, low ≤ x r) → ∀ r < n, 0 ≤ x r := fun x hx r hr => low0.trans (hx r hr)
  have half : ∀ t : ℝ, t ≤ 1 → ∀ x : ℕ → ℝ, (∀ r < n, low ≤ x r) → ∀ r < n, b ≤ (1 - t / 2) * x r := by
    intro t ht x hx r hr
    have := hx r hr
    nlinarith
  have eA : ∀ x : ℕ → ℝ, (∀ r < n, low ≤ x r) → Ref.readout f dw ts ((List.range F.nr).map (matTodo F n o)) x =
      runSlots G ((List.range F.nr).map slot) x := by
    intro x hx
    rw [readout_congr_slots hg hb hfg hts hs2 hG _ _ slot c1 (by linarith) x (nonneg x hx) (half _ (by linarith) x hx)]
    exact readout_slots hg hts hs2 hG _ _ slot c1 x (nonneg x hx)
  have hE : Real.exp (slotLoad s ((List.range F.nr).map slot)) - 1 ≤ Real.exp (3 * ((n + o : ℕ) * s)) - 1 := by
    have := Real.exp_le_exp.2 c2
    linarith
  refine ⟨⟨fun x hx r hr => ?_, fun x hx => ?_, fun x y hx hy => ?_⟩, fun x hx r hr => ?_⟩
  · rw [eA x hx]
    exact (half _ (by linarith) x hx r hr).trans (slots_floor hG _ expOk' (by linarith) x (nonneg x hx) r hr)
  · rw [eA x hx]
    exact (slots_small hG _ expOk' x (nonneg x hx)).trans
      (mul_le_mul_of_nonneg_right hE (Finset.sum_nonneg fun r hr => nonneg x hx r (Finset.mem_range.1 hr)))
  · rw [eA x hx, eA y hy]
    exact (slots_lip hG _ expOk' x y (nonneg x hx) (nonneg y hy)).trans
      (mul_le_mul_of_nonneg_right hE (Finset.sum_nonneg fun _ _ => abs_nonneg _))
  · rw [eA x hx]
    have := slots_rise hG (T := Ref.totals ts) (fun k x _ r _ => gains_high hg _ x ts hts r) _ expOk' x (nonneg x hx) r hr
    rw [List.map_map] at this
    change _ ≤ x r + Ref.totals ts * ((List.range F.nr).map fun k => (slot k).mult r).sum at this
    rw [hcol r hr] at this
    exact this

section columns
variable {full power dw : ℝ} {gs : List (List Trap)} {i : Bool} {c : CCD} {o : ℕ} {d : PyDirection}

/-- Power at least one. -/
theorem ExactObjects.mild_express (h : ExactObjects full power dw gs i c o d) (hpw : 1 ≤ power) (n e : ℕ) (hn : 0 < n)
    (he : e = 0 ∨ e + 1 ≠ n) (l : ℝ) (hl : l = 2 * (trapCount gs * (power / full))) (hl1 : l < 1)
    (h3 : 3 * ((n + o : ℕ) * (l / (1 - l))) ≤ 1) :
    Mild n 0 0 (Real.exp (3 * ((n + o : ℕ) * (l / (1 - l)))) - 1) (expressReadout full power dw gs i n e o) ∧
    ∀ x, (∀ r < n, 0 ≤ x r) → ∀ r < n,
      expressReadout full power dw gs i n e o x r ≤ x r + trapCount gs * ((r + o + 1 : ℕ) : ℝ) := by
  have hf := wellFill_lip h.full hpw
  have k := mul_nonneg h.count_nonneg hf.nonneg_slope
  have hF := h.few hf.nonneg_slope (by linarith)
  have hs : passSlope 1 (2 * (Ref.totals (gs.map Ref.ofTraps) * (power / full))) = l / (1 - l) := by
    rw [Ref.ofTraps_totals, ← hl, passSlope, one_mul]
  have key := express_mild (b := 0) (low := 0) hf le_rfl (fun _ _ => rfl) (by linarith) hF
    (Ref.ofTraps_spent h.dwell fun l hl => (h.groups.2 l hl).2) (Ref.ofTraps_filling gs)
    (by rw [Ref.ofTraps_totals, ← hl]; exact hl1) i n e o hn (by unfold effectiveExpress; split <;> omega)
    (by rw [hs]; exact h3)
  rw [hs, Ref.ofTraps_totals] at key
  exact key

/-- Power at most one and a background. -/
theorem ExactObjects.mild_express_background (h : ExactObjects full power dw gs i c o d) (hpw : power ≤ 1) (n e : ℕ)
    (hn : 0 < n) (he : e = 0 ∨ e + 1 ≠ n) (b l : ℝ) (hb : 0 < b) (hl : l = 2 * (trapCount gs * (wellFill full power b / b)))
    (hl1 : l < 1) (h3 : 3 * ((n + o : ℕ) * (l / (1 - l))) ≤ 1) :
    Mild n (2 * b) b (Real.exp (3 * ((n + o : ℕ) * (l / (1 - l)))) - 1) (expressReadout full power dw gs i n e o) ∧
    ∀ x, (∀ r < n, 2 * b ≤ x r) → ∀ r < n,
      expressReadout full power dw gs i n e o x r ≤ x r + trapCount gs * ((r + o + 1 : ℕ) : ℝ) := by
  have hf := (wellFill_concave h.full h.power hpw).lift hb
  have k := mul_nonneg h.count_nonneg hf.nonneg_slope
  have hF := h.few hf.nonneg_slope (by linarith)
  have hs : passSlope 1 (2 * (Ref.totals (gs.map Ref.ofTraps) * (wellFill full power b / b))) = l / (1 - l) := by
    rw [Ref.ofTraps_totals, ← hl, passSlope, one_mul]
  have key := express_mild (b := b) (low := 2 * b) hf hb.le (fun z hz => (liftFill_eq hz).symm) le_rfl hF
    (Ref.ofTraps_spent h.dwell fun l hl => (h.groups.2 l hl).2) (Ref.ofTraps_filling gs)
    (by rw [Ref.ofTraps_totals, ← hl]; exact hl1) i n e o hn (by unfold effectiveExpress; split <;> omega)
    (by rw [hs]; exact h3)
  rw [hs, Ref.ofTraps_totals] at key
  exact key

end columns

/-! ## Images -/

section main
variable {fp fs pp ps dp ds : ℝ} {gp gs : List (List Trap)} {ip is : Bool} {cp cs : CCD} {op os : ℕ}
  {par ser : PyDirection}

theorem addAgain_express (hp : ExactObjects fp pp dp gp ip cp op par) (hs : ExactObjects fs ps ds gs is cs os ser)
    (ep es : ℕ) (x y : Image ℝ) (h : addCtiPy x { par with express := ep } .all { ser with express := es } .all none =
        .ok (y, .standard [dp] true true true ip, .standard [ds] true true true is)) :
    addAgain { par with express := ep } { ser with express := es } x (par.roe, ser.roe) = .ok (y, par.roe, ser.roe) := by
  have hroe : par.roe = some (.standard [dp] true true true ip) ∧ ser.roe = some (.standard [ds] true true true is) := by
    rw [hp.eq, hs.eq]; exact ⟨rfl, rfl⟩
  unfold addAgain
  simp only [bind, Except.bind]
  rw [h]
  simp only [hroe.1, hroe.2, Option.map_some]

theorem addAgain_express_parallel (hp : ExactObjects fp pp dp gp ip cp op par) (e : ℕ) (x y : Image ℝ)
    (h : addCtiPy x { par with express := e } .all .absent .all none = .ok (y, .standard [dp] true true true ip, Roe.default)) :
    addAgain { par with express := e } .absent x (par.roe, none) = .ok (y, par.roe, none) := by
  have hroe : par.roe = some (.standard [dp] true true true ip) := by rw [hp.eq]
  have e2 : addCtiPy x { par with express := e, roe := par.roe } .all { PyDirection.absent with roe := none } .all none =
      .ok (y, .standard [dp] true true true ip, Roe.default) := h
  unfold addAgain
  simp only [bind, Except.bind]
  rw [e2]
  simp only [hroe, Option.map_some, Option.map_none]

theorem add_parallel_express (hp : ExactObjects fp pp dp gp ip cp op par) (img : Image ℝ) (hnr : 0 < img.nr) (e : ℕ)
    (he : e = 0 ∨ e + 1 ≠ img.nr) :
    ∃ out, addCtiPy img { par with express := e } .all .absent .all none =
        .ok (out, .standard [dp] true true true ip, Roe.default) ∧ out.nr = img.nr ∧ out.nc = img.nc ∧
      ∀ r < img.nr, ∀ c < img.nc, out.px r c = expressReadout fp pp dp gp ip img.nr e op (fun r => img.px r c) r := by
  obtain ⟨out, g1, g2, g3, g4⟩ := hp.run_express e img hnr he (some (List.range (img.nr + op)))
    (Or.inr ⟨img.nr, rfl, fun x hx => List.mem_range.1 hx⟩)
  refine ⟨out, ?_, g2, g3, g4⟩
  rw [hp.eq]
  unfold addCtiPy
  simp only [Window.resolve, bind, Except.bind, Option.getD_none, Option.getD_some, PyDirection.absent]
  rw [g1]

/-- The three statements for both directions. -/
theorem invert_express (hp : ExactObjects fp pp dp gp ip cp op par) (hs : ExactObjects fs ps ds gs is cs os ser)
    (hpp : 1 ≤ pp) (hps : 1 ≤ ps) {nr nc : ℕ} (hnr : 0 < nr) (hnc : 0 < nc) (ep es : ℕ) (hep : ep = 0 ∨ ep + 1 ≠ nr)
    (hes : es = 0 ∨ es + 1 ≠ nc) (lp ls t q : ℝ)
    (hlp : lp = 2 * (trapCount gp * (pp / fp))) (hls : ls = 2 * (trapCount gs * (ps / fs))) (hlp1 : lp < 1) (hls1 : ls < 1)
    (ht : t = (nr + op : ℕ) * (lp / (1 - lp)) + (nc + os : ℕ) * (ls / (1 - ls))) (ht1 : 3 * t ≤ 1)
    (hq : q = Real.exp (3 * t) - 1) (hq1 : q < 1) :
    Inverts (addAgain { par with express := ep } { ser with express := es }) (par.roe, ser.roe) nr nc 0 q
      fun r c => trapCount gp * ((r + op + 1 : ℕ) : ℝ) + trapCount gs * ((c + os + 1 : ℕ) : ℝ) := by
  have hlp0 : 0 ≤ lp := by
    rw [hlp]
    exact mul_nonneg zero_le_two (mul_nonneg hp.count_nonneg (div_pos (by linarith : 0 < pp) hp.full).le)
  have hls0 : 0 ≤ ls := by
    rw [hls]
    exact mul_nonneg zero_le_two (mul_nonneg hs.count_nonneg (div_pos (by linarith : 0 < ps) hs.full).le)
  have tp : 0 ≤ (nr + op : ℕ) * (lp / (1 - lp)) := mul_nonneg (Nat.cast_nonneg _) (div_nonneg hlp0 (by linarith))
  have ts : 0 ≤ (nc + os : ℕ) * (ls / (1 - ls)) := mul_nonneg (Nat.cast_nonneg _) (div_nonneg hls0 (by linarith))
  obtain ⟨hP, uP⟩ := hp.mild_express hpp nr ep hnr hep lp hlp hlp1 (by linarith)
  obtain ⟨hS, uS⟩ := hs.mild_express hps nc es hnc hes ls hls hls1 (by linarith)
  have hqS : 0 ≤ Real.exp (3 * ((nc + os : ℕ) * (ls / (1 - ls)))) - 1 := by
    have := Real.one_le_exp (by linarith : 0 ≤ 3 * ((nc + os : ℕ) * (ls / (1 - ls))))
    linarith
  have key := mildMap_both hP hS hqS (up := fun r => trapCount gp * ((r + op + 1 : ℕ) : ℝ))
    (us := fun c => trapCount gs * ((c + os + 1 : ℕ) : ℝ)) uP uS
  have e : (1 + (Real.exp (3 * ((nr + op : ℕ) * (lp / (1 - lp)))) - 1)) *
      (1 + (Real.exp (3 * ((nc + os : ℕ) * (ls / (1 - ls)))) - 1)) - 1 = q := by
    rw [add_sub_cancel, add_sub_cancel, ← Real.exp_add, ← mul_add, ← ht, hq]
  rw [e] at key
  have hq0 : 0 ≤ q := by
    have := Real.one_le_exp (by linarith : 0 ≤ 3 * t)
    linarith
  refine invert_general _ _ key hq0 hq1 (fun r _ c _ => add_nonneg (mul_nonneg hp.count_nonneg (Nat.cast_nonneg _))
      (mul_nonneg hs.count_nonneg (Nat.cast_nonneg _))) fun x h1 h2 => ?_
  subst h1 h2
  obtain ⟨y, y1, y2, y3, y4⟩ := add_cti_express hp hs x hnr hnc ep es hep hes
  exact ⟨y, addAgain_express hp hs ep es x y y1, y2, y3, y4⟩

/-- **C99**, both directions, `well_fill_power ≥ 1`, `express` the same when adding and removing. Let `λ` be twice the number
of traps per pixel times `power / full_well_depth`, and `t` the sum over both directions of `(rows + offset) λ / (1 - λ)`, and
`q = exp (3 t) - 1 < 1`. Let every pixel of an image hold at least one electron per trap and transfer. Then there is exactly one
image without negative pixels from which `add_cti` with `express` makes this image, and the image that `remove_cti` with the same
`express` returns after `n` iterations differs from it by at most `q^(n+1) / (1-q)` times the total charge, summed over all
pixels. `express` does not occur in the bound. -/
theorem C99_inverse (hp : ExactObjects fp pp dp gp ip cp op par) (hs : ExactObjects fs ps ds gs is cs os ser)
    (hpp : 1 ≤ pp) (hps : 1 ≤ ps) (img : Image ℝ) (hnr : 0 < img.nr) (hnc : 0 < img.nc) (ep es : ℕ)
    (hep : ep = 0 ∨ ep + 1 ≠ img.nr) (hes : es = 0 ∨ es + 1 ≠ img.nc) (lp ls t q : ℝ)
    (hlp : lp = 2 * (trapCount gp * (pp / fp))) (hls : ls = 2 * (trapCount gs * (ps / fs))) (hlp1 : lp < 1) (hls1 : ls < 1)
    (ht : t = (img.nr + op : ℕ) * (lp / (1 - lp)) + (img.nc + os : ℕ) * (ls / (1 - ls))) (ht1 : 3 * t ≤ 1)
    (hq : q = Real.exp (3 * t) - 1) (hq1 : q < 1)
    (himg : ∀ r < img.nr, ∀ c < img.nc,
      trapCount gp * ((r + op + 1 : ℕ) : ℝ) + trapCount gs * ((c + os + 1 : ℕ) : ℝ) ≤ img.px r c) :
    ∃ truth back, truth.SameShape img ∧ truth.AtLeast 0 ∧
      addCtiPy truth { par with express := ep } .all { ser with express := es } .all none =
        .ok (back, .standard [dp] true true true ip, .standard [ds] true true true is) ∧ back.Same img ∧
      (∀ other out roes, other.SameShape img → other.AtLeast 0 →
        addCtiPy other { par with express := ep } .all { ser with express := es } .all none = .ok (out, roes) →
        out.Same img → other.Same truth) ∧
      ∀ n, ∃ out, removeCtiPy img n { par with express := ep } .all { ser with express := es } .all none =
          .ok (out, par.roe, ser.roe) ∧ out.SameShape img ∧ out.dist truth ≤ q ^ (n + 1) / (1 - q) * img.total := by
  obtain ⟨-, G, -⟩ := invert_express hp hs hpp hps hnr hnc ep es hep hes lp ls t q hlp hls hlp1 hls1 ht ht1 hq hq1
  obtain ⟨truth, back, t1, t2, t3, t4, t5, t6⟩ := G img rfl rfl (fun r hr c hc => by rw [zero_add]; exact himg r hr c hc)
  have run : ∀ x : Image ℝ, x.SameShape img → ∃ y,
      addCtiPy x { par with express := ep } .all { ser with express := es } .all none =
      .ok (y, .standard [dp] true true true ip, .standard [ds] true true true is) := fun x hx => by
    obtain ⟨y, y1, -⟩ := add_cti_express hp hs x (by rw [hx.1]; exact hnr) (by rw [hx.2]; exact hnc) ep es
      (by rw [hx.1]; exact hep) (by rw [hx.2]; exact hes)
    exact ⟨y, y1⟩
  obtain ⟨back', b1⟩ := run truth t1
  obtain rfl : back' = back := by
    rw [addAgain_express hp hs ep es truth back' b1] at t3
    injection t3 with t3
    injection t3
  refine ⟨truth, back', t1, t2, b1, t4, fun other out roes o1 o2 o3 o4 => ?_, t6⟩
  obtain ⟨out', c1⟩ := run other o1
  rw [o3] at c1
  injection c1 with c1
  injection c1 with c1 c5
  rw [c5] at o3
  exact t5 other out o1 o2 (addAgain_express hp hs ep es other out o3) o4

/-- **C99**, noise: images without negative pixels stay apart when CTI is added with `express`, and `remove_cti` with `express`
increases the distance between two images at most `1 + q + … + q^n` times. -/
theorem C99_noise (hp : ExactObjects fp pp dp gp ip cp op par) (hs : ExactObjects fs ps ds gs is cs os ser)
    (hpp : 1 ≤ pp) (hps : 1 ≤ ps) (img img' : Image ℝ) (hsh : img'.SameShape img) (hnr : 0 < img.nr) (hnc : 0 < img.nc)
    (ep es : ℕ) (hep : ep = 0 ∨ ep + 1 ≠ img.nr) (hes : es = 0 ∨ es + 1 ≠ img.nc) (lp ls t q : ℝ)
    (hlp : lp = 2 * (trapCount gp * (pp / fp))) (hls : ls = 2 * (trapCount gs * (ps / fs))) (hlp1 : lp < 1) (hls1 : ls < 1)
    (ht : t = (img.nr + op : ℕ) * (lp / (1 - lp)) + (img.nc + os : ℕ) * (ls / (1 - ls))) (ht1 : 3 * t ≤ 1)
    (hq : q = Real.exp (3 * t) - 1) (hq1 : q < 1) :
    (img.AtLeast 0 → img'.AtLeast 0 → ∃ out out' roes,
      addCtiPy img { par with express := ep } .all { ser with express := es } .all none = .ok (out, roes) ∧
      addCtiPy img' { par with express := ep } .all { ser with express := es } .all none = .ok (out', roes) ∧
      (1 - q) * img'.dist img ≤ out'.dist out) ∧
    ((∀ r < img.nr, ∀ c < img.nc,
        trapCount gp * ((r + op + 1 : ℕ) : ℝ) + trapCount gs * ((c + os + 1 : ℕ) : ℝ) ≤ min (img.px r c) (img'.px r c)) →
      ∀ n, ∃ out out',
        removeCtiPy img n { par with express := ep } .all { ser with express := es } .all none = .ok (out, par.roe, ser.roe) ∧
        removeCtiPy img' n { par with express := ep } .all { ser with express := es } .all none =
          .ok (out', par.roe, ser.roe) ∧
        out'.dist out ≤ (∑ k ∈ Finset.range (n + 1), q ^ k) * img'.dist img) := by
  obtain ⟨G1, -, G3⟩ := invert_express hp hs hpp hps hnr hnc ep es hep hes lp ls t q hlp hls hlp1 hls1 ht ht1 hq hq1
  refine ⟨fun h h' => ?_, fun h n => ?_⟩
  · obtain ⟨out, b1, -⟩ := add_cti_express hp hs img hnr hnc ep es hep hes
    obtain ⟨out', c1, -⟩ := add_cti_express hp hs img' (by rw [hsh.1]; exact hnr) (by rw [hsh.2]; exact hnc) ep es
      (by rw [hsh.1]; exact hep) (by rw [hsh.2]; exact hes)
    exact ⟨out, out', _, b1, c1, G1 img' img out' out hsh.1 hsh.2 rfl rfl h' h (addAgain_express hp hs ep es _ _ c1)
      (addAgain_express hp hs ep es _ _ b1)⟩
  · obtain ⟨u, v, h1, h2, h3⟩ := G3 img' img hsh.1 hsh.2 rfl rfl
      (fun r hr c hc => by rw [zero_add]; exact (h r hr c hc).trans (min_le_right _ _))
      (fun r hr c hc => by rw [zero_add]; exact (h r hr c hc).trans (min_le_left _ _)) n
    exact ⟨v, u, h2, h1, h3⟩

/-- **C99** for parallel clocking with `well_fill_power ≤ 1` and a background of `2b` electrons: `λ` is twice the number of
traps per pixel times the volume per electron of a cloud of `b` electrons. -/
theorem C99_background (hp : ExactObjects fp pp dp gp ip cp op par) (hpp : pp ≤ 1) (img : Image ℝ)
    (hnr : 0 < img.nr) (e : ℕ) (he : e = 0 ∨ e + 1 ≠ img.nr) (b l t q : ℝ) (hb : 0 < b)
    (hl : l = 2 * (trapCount gp * (wellFill fp pp b / b))) (hl1 : l < 1)
    (ht : t = (img.nr + op : ℕ) * (l / (1 - l))) (ht1 : 3 * t ≤ 1) (hq : q = Real.exp (3 * t) - 1) (hq1 : q < 1)
    (himg : ∀ r < img.nr, ∀ c < img.nc, 2 * b + trapCount gp * ((r + op + 1 : ℕ) : ℝ) ≤ img.px r c) :
    ∃ truth back, truth.SameShape img ∧ truth.AtLeast (2 * b) ∧ addCtiPy truth { par with express := e } .all .absent .all none =
        .ok (back, .standard [dp] true true true ip, Roe.default) ∧ back.Same img ∧
      (∀ other out roes, other.SameShape img → other.AtLeast (2 * b) →
        addCtiPy other { par with express := e } .all .absent .all none = .ok (out, roes) → out.Same img → other.Same truth) ∧
      ∀ n, ∃ out, removeCtiPy img n { par with express := e } .all .absent .all none = .ok (out, par.roe, none) ∧
        out.SameShape img ∧ out.dist truth ≤ q ^ (n + 1) / (1 - q) * img.total := by
  obtain ⟨hP, uP⟩ := hp.mild_express_background hpp img.nr e hnr he b l hb hl hl1 (by rw [← ht]; exact ht1)
  rw [← ht, ← hq] at hP
  have hl0 : 0 ≤ l := by
    rw [hl]
    exact mul_nonneg zero_le_two
      (mul_nonneg hp.count_nonneg (div_nonneg ((wellFill_exact hp.full hp.power).1.nonneg b) hb.le))
  have ht0 : 0 ≤ t := by
    rw [ht]
    exact mul_nonneg (Nat.cast_nonneg _) (div_nonneg hl0 (by linarith))
  have hq0 : 0 ≤ q := by
    have := Real.one_le_exp (by linarith : 0 ≤ 3 * t)
    linarith
  have run : ∀ x : Image ℝ, x.nr = img.nr → x.nc = img.nc → ∃ y, addCtiPy x { par with express := e } .all .absent .all none =
      .ok (y, .standard [dp] true true true ip, Roe.default) ∧ y.nr = img.nr ∧ y.nc = img.nc ∧
      ∀ r < img.nr, ∀ c < img.nc, y.px r c = expressReadout fp pp dp gp ip img.nr e op (fun r => x.px r c) r := by
    intro x h1 h2
    obtain ⟨y, y1, y2, y3, y4⟩ := add_parallel_express hp x (by rw [h1]; exact hnr) e (by rw [h1]; exact he)
    rw [h1, h2] at y4
    exact ⟨y, y1, y2.trans h1, y3.trans h2, y4⟩
  obtain ⟨-, G, -⟩ := invert_general (addAgain { par with express := e } .absent) (par.roe, none)
    (mildMap_parallel (nc := img.nc) hP (up := fun r => trapCount gp * ((r + op + 1 : ℕ) : ℝ)) uP) hq0 hq1
    (fun r _ c _ => mul_nonneg hp.count_nonneg (Nat.cast_nonneg _)) (fun x h1 h2 => by
      obtain ⟨y, g1, g2, g3, g4⟩ := run x h1 h2
      exact ⟨y, addAgain_express_parallel hp e x y g1, g2, g3, g4⟩)
  obtain ⟨truth, back, t1, t2, t3, t4, t5, t6⟩ := G img rfl rfl himg
  obtain ⟨back', b1, -⟩ := run truth t1.1 t1.2
  obtain rfl : back' = back := by
    rw [addAgain_express_parallel hp e truth back' b1] at t3
    injection t3 with t3
    injection t3
  refine ⟨truth, back', t1, t2, b1, t4, fun other out roes o1 o2 o3 o4 => ?_, t6⟩
  obtain ⟨out', c1, -⟩ := run other o1.1 o1.2
  rw [o3] at c1
  injection c1 with c1
  injection c1 with c1 c5
  rw [c5] at o3
  exact t5 other out o1 o2 (addAgain_express_parallel hp e other out o3) o4

end main

/-- **C99** for the HST preset. -/
theorem C99_hst (date : ℝ) (hd : 2452334.5 ≤ date) (img : Image ℝ) (hnr : 0 < img.nr) (e o : ℕ) (he : e = 0 ∨ e + 1 ≠ img.nr)
    (b l t q : ℝ) (hb : 0 < b) (hl : l = 2 * (hstTotalDensity date * (wellFill 84700 0.478 b / b))) (hl1 : l < 1)
    (ht : t = (img.nr + o : ℕ) * (l / (1 - l))) (ht1 : 3 * t ≤ 1) (hq : q = Real.exp (3 * t) - 1) (hq1 : q < 1)
    (himg : ∀ r < img.nr, ∀ c < img.nc, 2 * b + hstTotalDensity date * ((r + o + 1 : ℕ) : ℝ) ≤ img.px r c) :
    ∃ traps ccd roe truth back, modelForHstAcs date = .ok (traps, ccd, roe) ∧ truth.SameShape img ∧
      truth.AtLeast (2 * b) ∧
      addCtiPy truth ⟨some ccd, some roe, some (.list (traps.map .trap)), e, o⟩ .all .absent .all none =
        .ok (back, roe, Roe.default) ∧ back.Same img ∧
      (∀ other out roes, other.SameShape img → other.AtLeast (2 * b) →
        addCtiPy other ⟨some ccd, some roe, some (.list (traps.map .trap)), e, o⟩ .all .absent .all none = .ok (out, roes) →
        out.Same img → other.Same truth) ∧
      ∀ n, ∃ out, removeCtiPy img n ⟨some ccd, some roe, some (.list (traps.map .trap)), e, o⟩ .all .absent .all none =
          .ok (out, some roe, none) ∧ out.SameShape img ∧ out.dist truth ≤ q ^ (n + 1) / (1 - q) * img.total := by
  obtain ⟨traps, ccd, h, hne, hx⟩ := hst_exact date hd o
  have hcount : trapCount [traps] = hstTotalDensity date := hst_count h
  obtain ⟨truth, back, t1, t2, t3, t4, t5, t6⟩ := C99_background hx (by norm_num) img hnr e he b l t q hb
    (by rw [hcount]; exact hl) hl1 ht ht1 hq hq1 (by rw [hcount]; exact himg)
  have eq := fun x => addCtiPy_trap_list x ⟨some ccd, some (.standard [1] true true true false), none, e, o⟩ traps hne .all
      .absent .all none
  refine ⟨traps, ccd, _, truth, back, h, t1, t2, (eq truth).trans t3, t4, fun other out roes o1 o2 o3 o4 => ?_, fun n => ?_⟩
  · exact t5 other out roes o1 o2 ((eq other).symm.trans o3) o4
  · obtain ⟨out, o1, o2, o3⟩ := t6 n
    refine ⟨out, ?_, o2, o3⟩
    exact (removeCtiPy_trap_list img n ⟨some ccd, some (.standard [1] true true true false), none, e, o⟩ traps hne .all
      .absent .all none).trans o1

/-! ### examples -/

/-- Two directions, a linear well of 10000 electrons with half a trap per pixel, `express = 1`. -/
example (c : CCD) (d : PyDirection) (h : ExactObjects 10000 1 1 [[.instant (1 / 2) 5 false]] false c 0 d) :
    ∃ truth back, truth.SameShape ⟨10, 20, fun _ _ => 100⟩ ∧ truth.AtLeast 0 ∧
      addCtiPy truth { d with express := 1 } .all { d with express := 1 } .all none =
        .ok (back, .standard [1] true true true false, .standard [1] true true true false) ∧
      back.Same ⟨10, 20, fun _ _ => 100⟩ ∧
      ∀ n, ∃ out, removeCtiPy ⟨10, 20, fun _ _ => 100⟩ n { d with express := 1 } .all { d with express := 1 } .all none =
          .ok (out, d.roe, d.roe) ∧ out.dist truth ≤ 0.02 ^ (n + 1) / 0.98 * 20000 := by
  have hc : trapCount [[.instant (1 / 2) 5 false]] = 1 / 2 := by simp [trapCount, Trap.density]
  have hb : Real.exp (3 * (30 * (0.0001 / (1 - 0.0001)))) - 1 ≤ 0.02 := by
    have := Real.abs_exp_sub_one_sub_id_le (x := 3 * (30 * (0.0001 / (1 - 0.0001)))) (by
      rw [abs_of_nonneg (by norm_num)]; norm_num)
    have := (abs_le.1 this).2
    norm_num at this ⊢
    linarith
  have h0 : 0 ≤ Real.exp (3 * (30 * (0.0001 / (1 - 0.0001)))) - 1 := by
    have := Real.one_le_exp (by norm_num : (0 : ℝ) ≤ 3 * (30 * (0.0001 / (1 - 0.0001))))
    linarith
  obtain ⟨truth, back, t1, t2, t3, t4, -, t6⟩ := C99_inverse h h le_rfl le_rfl ⟨10, 20, fun _ _ => 100⟩ (by norm_num)
    (by norm_num) 1 1 (Or.inr (by norm_num)) (Or.inr (by norm_num)) 0.0001 0.0001 (30 * (0.0001 / (1 - 0.0001))) _
    (by rw [hc]; norm_num) (by rw [hc]; norm_num) (by norm_num) (by norm_num) (by norm_num) (by norm_num) rfl (by linarith)
    (fun r hr c' hc' => by
      rw [hc]
      have e1 : ((r + 0 + 1 : ℕ) : ℝ) ≤ 10 := by
        have : r + 0 + 1 ≤ 10 := by simp only at hr; omega
        exact_mod_cast this
      have e2 : ((c' + 0 + 1 : ℕ) : ℝ) ≤ 20 := by
        have : c' + 0 + 1 ≤ 20 := by simp only at hc'; omega
        exact_mod_cast this
      simp only
      linarith)
  refine ⟨truth, back, t1, t2, t3, t4, fun n => ?_⟩
  obtain ⟨out, o1, -, o3⟩ := t6 n
  refine ⟨out, o1, o3.trans ?_⟩
  have e : Image.total ⟨10, 20, fun _ _ => (100 : ℝ)⟩ = 20000 := by simp [Image.total]; norm_num
  rw [e]
  refine mul_le_mul_of_nonneg_right ?_ (by norm_num)
  exact div_le_div₀ (by positivity) (pow_le_pow_left₀ h0 hb _) (by norm_num) (by linarith)

end Arctic
