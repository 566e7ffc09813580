import Verif.Props.DwellErrors
import Verif.Props.LeftOut

/-!
# C123 — superposition, and traps missing from the description, over a background with a notch

C106 and C109 with a notch and any `well_fill_power`, over a background.
-/

set_option linter.unusedSectionVars false
set_option linter.unusedVariables false

namespace Arctic

section column
variable {notch full power dw : ℝ} {g m : List (List Trap)} {i : Bool} {c : CCD} {o n : ℕ} {d d' : PyDirection} {b low left k : ℝ}

theorem NotchObjects.rest (h : NotchObjects notch full power dw (g ++ m) i c o d) (hm : m ≠ []) :
    NotchObjects notch full power dw m i c o ⟨some c, some (.standard [dw] true true true i), some (.list (m.map .group)), 0, o⟩ :=
  ⟨rfl, h.phase, h.notch, h.power, h.dwell, hm, fun l hl => h.groups.2 l (List.mem_append_right _ hl)⟩

theorem NotchObjects.rest_nonneg (h : NotchObjects notch full power dw (g ++ m) i c o d) : 0 ≤ trapCount m := by
  by_cases hm : m = []
  · subst hm; simp [trapCount]
  · exact (h.rest hm).count_nonneg

/-- A background kept with more traps is kept with fewer. -/
theorem OverNotch.fewer {g' : List (List Trap)} (hb : OverNotch notch full power g (n + o) b low left k)
    (hs : 0 ≤ notchSlope notch full power b) (hc : trapCount g' ≤ trapCount g) : OverNotch notch full power g' (n + o) b low left k :=
  ⟨hb.pos, hb.depth, (mul_le_mul_of_nonneg_right hc hs).trans hb.slope, hb.slope_le, hb.keeps, hb.leaves⟩

/-- Columns with the traps of two lists, and with those of each list. -/
theorem NotchObjects.superpose (h : NotchObjects notch full power dw (g ++ m) i c o d)
    (h₁ : NotchObjects notch full power dw g i c o d') {d'' : PyDirection} (h₂ : NotchObjects notch full power dw m i c o d'')
    (hb : OverNotch notch full power (g ++ m) (n + o) b low left k) {l₁ l₂ : ℝ}
    (hl₁ : l₁ = 4 * (trapCount g * notchSlope notch full power b)) (hl₂ : l₂ = 4 * (trapCount m * notchSlope notch full power b))
    (hk : 4 * k < 1) (x : ℕ → ℝ) (hx : ∀ r < n, low ≤ x r) :
    ∑ r ∈ Finset.range n, |(Ref.stepReadout (Ref.fullStep (notchFill notch full power) dw) ((g ++ m).map Ref.fullOf)
          (Ref.allPasses n o) x r - x r) -
        ((Ref.stepReadout (Ref.fullStep (notchFill notch full power) dw) (g.map Ref.fullOf) (Ref.allPasses n o) x r - x r) +
          (Ref.stepReadout (Ref.fullStep (notchFill notch full power) dw) (m.map Ref.fullOf) (Ref.allPasses n o) x r - x r))| ≤
      crossSlope (l₁ / (1 - l₁)) (l₂ / (1 - l₂)) (n + o) * ∑ r ∈ Finset.range n, x r := by
  have hlaw := h.law hb.pos
  have hs := hb.slope
  have hsl := hlaw.lip.nonneg_slope
  have k₁ := mul_nonneg h₁.count_nonneg hsl
  have k₂ := mul_nonneg h₂.count_nonneg hsl
  have hcount : trapCount (g ++ m) = trapCount g + trapCount m := trapCount_append g m
  have hb₁ : OverNotch notch full power g (n + o) b low left k := hb.fewer hsl (by linarith [h₂.count_nonneg])
  have hb₂ : OverNotch notch full power m (n + o) b low left k := hb.fewer hsl (by linarith [h₁.count_nonneg])
  have hsum : 4 * (trapCount (g ++ m) * notchSlope notch full power b) = l₁ + l₂ := by rw [hcount, hl₁, hl₂]; ring
  have G := full_gentle (dw := dw) hlaw.lip h.count_nonneg (by linarith)
  have G₁ := full_gentle (dw := dw) hlaw.lip h₁.count_nonneg (by linarith)
  have G₂ := full_gentle (dw := dw) hlaw.lip h₂.count_nonneg (by linarith)
  rw [← hl₁] at G₁
  rw [← hl₂] at G₂
  rw [hsum] at G
  have key := (full_joined (liftFill (notchFill notch full power) b) dw).readout G G₁ G₂ (by linarith) (by linarith) (by linarith)
    (by linarith) (by linarith) (by linarith) n (a := g.map Ref.fullOf) (b := m.map Ref.fullOf)
    (by have := h.few.1; rwa [List.map_append] at this) h₁.few.1 h₂.few.1 h₁.few.2 h₂.few.2 (Ref.allPasses n o) x (hb.above hx).1
    (allPasses_good n o).nodup (allPasses_one n o)
  rw [allPasses_length] at key
  rw [(hlaw.readout (dw := dw) h.count_nonneg (by linarith [hb.slope_le]) h.few.1 n o x (hb.above hx).2 (hb.above hx).1).2.1,
    (hlaw.readout (dw := dw) h₁.count_nonneg (by linarith [hb.slope_le]) h₁.few.1 n o x (hb₁.above hx).2 (hb₁.above hx).1).2.1,
    (hlaw.readout (dw := dw) h₂.count_nonneg (by linarith [hb.slope_le]) h₂.few.1 n o x (hb₂.above hx).2 (hb₂.above hx).1).2.1,
    List.map_append]
  exact key

/-- A column with and without the groups `m`. -/
theorem NotchObjects.extra (h : NotchObjects notch full power dw (g ++ m) i c o d)
    (h₁ : NotchObjects notch full power dw g i c o d') (hb : OverNotch notch full power (g ++ m) (n + o) b low left k) {a e : ℝ}
    (ha : a = 4 * (trapCount g * notchSlope notch full power b)) (he : e = 4 * (trapCount m * notchSlope notch full power b))
    (hk : 4 * k < 1) (x : ℕ → ℝ) (hx : ∀ r < n, low ≤ x r) :
    colDist n (Ref.stepReadout (Ref.fullStep (notchFill notch full power) dw) ((g ++ m).map Ref.fullOf) (Ref.allPasses n o) x)
      (Ref.stepReadout (Ref.fullStep (notchFill notch full power) dw) (g.map Ref.fullOf) (Ref.allPasses n o) x) ≤
      extraSlope (a / (1 - a)) (e / (1 - e)) (n + o) * ∑ r ∈ Finset.range n, x r := by
  have hlaw := h.law hb.pos
  have hsl := hlaw.lip.nonneg_slope
  have hs := hb.slope
  have hcount : trapCount (g ++ m) = trapCount g + trapCount m := trapCount_append g m
  have k1 : 0 ≤ a := by rw [ha]; exact mul_nonneg (by norm_num) (mul_nonneg h₁.count_nonneg hsl)
  have k2 : 0 ≤ e := by rw [he]; exact mul_nonneg (by norm_num) (mul_nonneg h.rest_nonneg hsl)
  have hsum : a + e < 1 := by
    have : 4 * (trapCount (g ++ m) * notchSlope notch full power b) = a + e := by rw [hcount, ha, he]; ring
    linarith
  have hS : 0 ≤ ∑ r ∈ Finset.range n, x r := Finset.sum_nonneg fun r hr => (hb.above hx).1 r (Finset.mem_range.1 hr)
  by_cases hm : m = []
  · subst hm
    rw [List.append_nil]
    have := mul_nonneg (extraSlope_nonneg (div_nonneg k1 (by linarith : (0 : ℝ) ≤ 1 - a))
      (div_nonneg k2 (by linarith : (0 : ℝ) ≤ 1 - e)) (n + o)) hS
    refine le_trans (le_of_eq ?_) this
    unfold colDist
    simp
  · have h₂ := h.rest hm
    have hb₂ : OverNotch notch full power m (n + o) b low left k := hb.fewer hsl (by linarith [h₁.count_nonneg])
    have key := h.superpose h₁ h₂ hb ha he hk x hx
    have small : ∑ r ∈ Finset.range n, |Ref.stepReadout (Ref.fullStep (notchFill notch full power) dw) (m.map Ref.fullOf)
        (Ref.allPasses n o) x r - x r| ≤ lossSlope e (n + o) * ∑ r ∈ Finset.range n, x r := by
      rw [(hlaw.readout (dw := dw) h₂.count_nonneg (by linarith [hb₂.slope, hb₂.slope_le]) h₂.few.1 n o x (hb₂.above hx).2
        (hb₂.above hx).1).2.1]
      have := ((full_gentle (dw := dw) hlaw.lip h₂.count_nonneg (by linarith)).mild (by linarith) (by linarith) h₂.few.1
        h₂.few.2 n o).small x (hb₂.above hx).1
      rwa [← he] at this
    have e' : crossSlope (a / (1 - a)) (e / (1 - e)) (n + o) + lossSlope e (n + o) =
        extraSlope (a / (1 - a)) (e / (1 - e)) (n + o) := by
      have : 1 / (1 - e) = 1 + e / (1 - e) := by
        have : (1 - e) ≠ 0 := by linarith
        field_simp
        ring
      unfold crossSlope lossSlope extraSlope
      rw [this]
      ring
    rw [← e', add_mul]
    refine le_trans ?_ (add_le_add key small)
    unfold colDist
    rw [← Finset.sum_add_distrib]
    refine Finset.sum_le_sum fun r _ => ?_
    refine le_trans (le_of_eq ?_) (abs_add_le _ _)
    congr 1
    ring

/-- Both readouts as maps that are close to each other. -/
theorem NotchObjects.extra_near (h : NotchObjects notch full power dw (g ++ m) i c o d)
    (h₁ : NotchObjects notch full power dw g i c o d') (hb : OverNotch notch full power (g ++ m) (n + o) b low left k) {a e : ℝ}
    (ha : a = 4 * (trapCount g * notchSlope notch full power b)) (he : e = 4 * (trapCount m * notchSlope notch full power b))
    (hk : 4 * k < 1) (hq : lossSlope (4 * k) (n + o) ≤ 1) :
    Expressed n low left (extraSlope (a / (1 - a)) (e / (1 - e)) (n + o))
      (Ref.stepReadout (Ref.fullStep (notchFill notch full power) dw) ((g ++ m).map Ref.fullOf) (Ref.allPasses n o))
      (Ref.stepReadout (Ref.fullStep (notchFill notch full power) dw) (g.map Ref.fullOf) (Ref.allPasses n o)) := by
  have hlaw := h.law hb.pos
  have hsl := hlaw.lip.nonneg_slope
  have hb₁ : OverNotch notch full power g (n + o) b low left k :=
    hb.fewer hsl (by rw [trapCount_append]; linarith [h.rest_nonneg])
  have M := (h.mild hb hk).2
  have M₁ := (h₁.mild hb₁ hk).2
  refine ⟨M.floor, M₁.floor, fun x hx => h.extra h₁ hb ha he hk x hx, fun x y hx hy => ?_, fun x hx => ?_⟩
  · have := M₁.lip x y hx hy
    have hD : 0 ≤ colDist n x y := Finset.sum_nonneg fun _ _ => abs_nonneg _
    have h2 : lossSlope (4 * k) (n + o) * colDist n x y ≤ 1 * colDist n x y := mul_le_mul_of_nonneg_right hq hD
    have h3 : colDist n (Ref.stepReadout (Ref.fullStep (notchFill notch full power) dw) (g.map Ref.fullOf) (Ref.allPasses n o) x)
        (Ref.stepReadout (Ref.fullStep (notchFill notch full power) dw) (g.map Ref.fullOf) (Ref.allPasses n o) y) ≤
        lossSlope (4 * k) (n + o) * colDist n x y + colDist n x y := by
      refine le_trans ?_ (add_le_add_left this _)
      unfold colDist
      rw [← Finset.sum_add_distrib]
      refine Finset.sum_le_sum fun r _ => ?_
      refine le_trans (le_of_eq ?_) (abs_add_le _ _)
      congr 1
      ring
    linarith
  · rw [(hlaw.readout (dw := dw) h₁.count_nonneg (by linarith [hb₁.slope, hb₁.slope_le]) h₁.few.1 n o x (hb₁.above hx).2
      (hb₁.above hx).1).2.1]
    exact (full_gentle hlaw.lip h₁.count_nonneg (by linarith [hb₁.slope])).readout_total n h₁.few.1 h₁.few.2 _
      (allPasses_one n o) x (hb₁.above hx).1

/-- What missing traps change is at most two electrons per electron. -/
theorem extraSlope_le {a e l : ℝ} (ha : 0 ≤ a) (he : 0 ≤ e) (hl : a + e ≤ l) (hl1 : l < 1) (N : ℕ) (hq : lossSlope l N ≤ 1) :
    extraSlope (a / (1 - a)) (e / (1 - e)) N ≤ 2 := by
  have e1 : 1 + a / (1 - a) + e / (1 - e) ≤ 1 / (1 - (a + e)) := by
    have i1 : a / (1 - a) ≤ a / (1 - (a + e)) := div_le_div_of_nonneg_left ha (by linarith) (by linarith)
    have i2 : e / (1 - e) ≤ e / (1 - (a + e)) := div_le_div_of_nonneg_left he (by linarith) (by linarith)
    have i3 : 1 + a / (1 - (a + e)) + e / (1 - (a + e)) = 1 / (1 - (a + e)) := by
      have : (1 - (a + e)) ≠ 0 := by linarith
      field_simp
      ring
    linarith
  have z1 : 0 ≤ a / (1 - a) := div_nonneg ha (by linarith)
  have z2 : 0 ≤ e / (1 - e) := div_nonneg he (by linarith)
  have e2 := pow_le_pow_left₀ (by linarith) e1 N
  have e3 : 1 ≤ (1 + a / (1 - a)) ^ N := one_le_pow₀ (by linarith)
  have e4 := lossSlope_mono hl hl1 N
  unfold lossSlope at hq e4
  unfold extraSlope
  linarith

end column

section other
variable {wp wp' ws ws' fp fp' fs fs' pp pp' ps ps' dp ds dp' ds' : ℝ} {gp gp' gs gs' : List (List Trap)} {ip is ip' is' : Bool}
  {cp cs cp' cs' : CCD} {op os : ℕ} {par ser par' ser' : PyDirection} {bp bs lp ls left kp ks ηp ηs ε δ q : ℝ}

/-- An image made with one description and corrected with another whose readout differs by at most `E` electrons. -/
theorem remove_notched (hp : NotchObjects wp fp pp dp gp ip cp op par) (hs : NotchObjects ws fs ps ds gs is cs os ser)
    (hp' : NotchObjects wp' fp' pp' dp' gp' ip' cp' op par') (hs' : NotchObjects ws' fs' ps' ds' gs' is' cs' os ser')
    (truth : Image ℝ) (hnr : 0 < truth.nr) (hnc : 0 < truth.nc)
    (hbp : OverNotch wp fp pp gp (truth.nr + op) bp lp ls kp) (hbs : OverNotch ws fs ps gs (truth.nc + os) bs ls left ks)
    (hbp' : OverNotch wp' fp' pp' gp' (truth.nr + op) bp lp ls kp) (hbs' : OverNotch ws' fs' ps' gs' (truth.nc + os) bs ls left ks)
    (hkp : 4 * kp < 1) (hks : 4 * ks < 1)
    (hq : q = (1 / (1 - 4 * kp)) ^ (truth.nr + op) * (1 / (1 - 4 * ks)) ^ (truth.nc + os) - 1)
    (hq1 : q < 1) (hpos : 0 ≤ truth.total) {E : ℝ} (hE0 : 0 ≤ E)
    (near : ∑ r ∈ Finset.range truth.nr, ∑ c ∈ Finset.range truth.nc,
        |Ref.stepReadout (Ref.fullStep (notchFill ws' fs' ps') ds') (gs'.map Ref.fullOf) (Ref.allPasses truth.nc os)
            (fun c => Ref.stepReadout (Ref.fullStep (notchFill wp' fp' pp') dp') (gp'.map Ref.fullOf) (Ref.allPasses truth.nr op)
              (fun r => truth.px r c) r) c -
          Ref.stepReadout (Ref.fullStep (notchFill ws fs ps) ds) (gs.map Ref.fullOf) (Ref.allPasses truth.nc os)
            (fun c => Ref.stepReadout (Ref.fullStep (notchFill wp fp pp) dp) (gp.map Ref.fullOf) (Ref.allPasses truth.nr op)
              (fun r => truth.px r c) r) c| ≤ E)
    (htruth : ∀ r < truth.nr, ∀ c < truth.nc, lp + (q * truth.total + E / (1 - q)) ≤ truth.px r c) :
    ∃ img roes, addCtiPy truth par .all ser .all none = .ok (img, roes) ∧
      ∀ n, ∃ out, removeCtiPy img n par' .all ser' .all none = .ok (out, par'.roe, ser'.roe) ∧ out.SameShape truth ∧
        out.dist truth ≤ q ^ (n + 1) * truth.total + E / (1 - q) := by
  obtain ⟨q0p, mP0⟩ := hp.mild hbp hkp
  obtain ⟨q0s, mS0⟩ := hs.mild hbs hks
  obtain ⟨-, mP⟩ := hp'.mild hbp' hkp
  obtain ⟨-, mS⟩ := hs'.mild hbs' hks
  have qe : (1 + lossSlope (4 * kp) (truth.nr + op)) * (1 + lossSlope (4 * ks) (truth.nc + os)) - 1 = q := by
    rw [hq]; unfold lossSlope; ring
  have hq0 : 0 ≤ q := by rw [← qe]; nlinarith
  have hd : 0 ≤ E / (1 - q) := div_nonneg hE0 (by linarith)
  have ht0 : truth.AtLeast lp := fun r hr c hc => by
    have := mul_nonneg hq0 hpos
    linarith [htruth r hr c hc]
  obtain ⟨img, b1, b2, b3, -, b4⟩ := C116_add_cti hp hs truth hnr hnc hbp hbs ht0
  have small := mild_image_small mP0 mS0 q0s truth.px ht0
  rw [qe] at small
  change _ ≤ q * truth.total at small
  have hdist : img.dist truth ≤ q * truth.total := by
    refine le_trans (le_of_eq ?_) small
    unfold Image.dist
    rw [b2, b3]
    refine Finset.sum_congr rfl fun r hr => Finset.sum_congr rfl fun c hc => ?_
    rw [b4 r (Finset.mem_range.1 hr) c (Finset.mem_range.1 hc)]
  have hroe : par'.roe = some (.standard [dp'] true true true ip') ∧ ser'.roe = some (.standard [ds'] true true true is') := by
    rw [hp'.eq, hs'.eq]; exact ⟨rfl, rfl⟩
  refine ⟨img, _, b1, fun n => ?_⟩
  have main := removeIter_near (fun x (roes : Option (Roe ℝ) × Option (Roe ℝ)) => do
      let (y, rp, rs) ← addCtiPy x { par' with roe := roes.1 } .all { ser' with roe := roes.2 } .all none
      .ok (y, roes.1.map fun _ => rp, roes.2.map fun _ => rs)) (par'.roe, ser'.roe) truth img lp q
    E (q * truth.total) hq0 hq1 hE0 ⟨b2, b3⟩ hdist htruth (fun x hx hlow => ?_) n
  · obtain ⟨out, o1, o2, o3⟩ := main
    refine ⟨out, o1, o2, o3.trans (le_of_eq ?_)⟩
    ring
  · obtain ⟨y, g1, g2, g3, -, g4⟩ := C116_add_cti hp' hs' x (by rw [hx.1]; exact hnr) (by rw [hx.2]; exact hnc)
      (by rw [hx.1]; exact hbp') (by rw [hx.2]; exact hbs')
      (fun r hr c hc => hlow r (by rw [← hx.1]; exact hr) c (by rw [← hx.2]; exact hc))
    rw [hx.1, hx.2] at g4
    refine ⟨y, ?_, ⟨g2.trans hx.1, g3.trans hx.2⟩, ?_⟩
    · simp only [bind, Except.bind]
      rw [g1]
      simp only [hroe.1, hroe.2, Option.map_some]
    · have lip := mild_image mP mS q0s x.px truth.px hlow ht0
      rw [qe] at lip
      have e : x.dist truth = ∑ r ∈ Finset.range truth.nr, ∑ c ∈ Finset.range truth.nc, |x.px r c - truth.px r c| := by
        unfold Image.dist
        rw [hx.1, hx.2]
      rw [← e] at lip
      have both := add_le_add lip near
      rw [← Finset.sum_add_distrib] at both
      refine le_trans ?_ both
      refine Finset.sum_le_sum fun r hr => ?_
      rw [← Finset.sum_add_distrib]
      refine Finset.sum_le_sum fun c hc => ?_
      rw [g4 r (Finset.mem_range.1 hr) c (Finset.mem_range.1 hc), b4 r (Finset.mem_range.1 hr) c (Finset.mem_range.1 hc)]
      refine le_trans (le_of_eq ?_) (abs_add_le _ _)
      congr 1
      ring

end other

section main
variable {wp ws fp fs pp ps dp ds : ℝ} {gp gs mp ms : List (List Trap)} {ip is : Bool} {cp cs : CCD} {op os : ℕ}
  {par ser par' ser' par'' : PyDirection} {bp bs lp ls left kp ks q E : ℝ}

/-- What the groups `m` add, per electron, in `N` transfers of clouds of `b` electrons or more. -/
noncomputable def extraOver (notch full power b : ℝ) (g m : List (List Trap)) (N : ℕ) : ℝ :=
  extraSlope (4 * (trapCount g * notchSlope notch full power b) / (1 - 4 * (trapCount g * notchSlope notch full power b)))
    (4 * (trapCount m * notchSlope notch full power b) / (1 - 4 * (trapCount m * notchSlope notch full power b))) N

/-- Images, in terms of the reference. -/
theorem leftOut_notched (hp : NotchObjects wp fp pp dp (gp ++ mp) ip cp op par) (hs : NotchObjects ws fs ps ds (gs ++ ms) is cs os ser)
    (hp' : NotchObjects wp fp pp dp gp ip cp op par') (hs' : NotchObjects ws fs ps ds gs is cs os ser') {nr nc : ℕ}
    (hbp : OverNotch wp fp pp (gp ++ mp) (nr + op) bp lp ls kp) (hbs : OverNotch ws fs ps (gs ++ ms) (nc + os) bs ls left ks)
    (hkp : 4 * kp < 1) (hks : 4 * ks < 1)
    (hq : q = (1 / (1 - 4 * kp)) ^ (nr + op) * (1 / (1 - 4 * ks)) ^ (nc + os) - 1) (hq1 : q < 1)
    (hE : E = 2 * extraOver wp fp pp bp gp mp (nr + op) + 3 * extraOver ws fs ps bs gs ms (nc + os)) :
    0 ≤ E ∧ OverNotch wp fp pp gp (nr + op) bp lp ls kp ∧ OverNotch ws fs ps gs (nc + os) bs ls left ks ∧
    ∀ x : ℕ → ℕ → ℝ, (∀ r < nr, ∀ c < nc, lp ≤ x r c) →
      ∑ r ∈ Finset.range nr, ∑ c ∈ Finset.range nc,
        |Ref.stepReadout (Ref.fullStep (notchFill ws fs ps) ds) ((gs ++ ms).map Ref.fullOf) (Ref.allPasses nc os)
            (fun c => Ref.stepReadout (Ref.fullStep (notchFill wp fp pp) dp) ((gp ++ mp).map Ref.fullOf) (Ref.allPasses nr op)
              (fun r => x r c) r) c -
          Ref.stepReadout (Ref.fullStep (notchFill ws fs ps) ds) (gs.map Ref.fullOf) (Ref.allPasses nc os)
            (fun c => Ref.stepReadout (Ref.fullStep (notchFill wp fp pp) dp) (gp.map Ref.fullOf) (Ref.allPasses nr op)
              (fun r => x r c) r) c| ≤
        E * ∑ r ∈ Finset.range nr, ∑ c ∈ Finset.range nc, x r c := by
  have slp := (hp.law hbp.pos).lip.nonneg_slope
  have sls := (hs.law hbs.pos).lip.nonneg_slope
  have q0p := (hp.mild hbp hkp).1
  have q0s := (hs.mild hbs hks).1
  have qe : (1 + lossSlope (4 * kp) (nr + op)) * (1 + lossSlope (4 * ks) (nc + os)) - 1 = q := by
    rw [hq]; unfold lossSlope; ring
  have qp1 : lossSlope (4 * kp) (nr + op) ≤ 1 := by nlinarith
  have qs1 : lossSlope (4 * ks) (nc + os) ≤ 1 := by nlinarith
  have zap := mul_nonneg hp'.count_nonneg slp
  have zbp := mul_nonneg hp.rest_nonneg slp
  have zas := mul_nonneg hs'.count_nonneg sls
  have zbs := mul_nonneg hs.rest_nonneg sls
  have sump := hbp.slope
  have sums := hbs.slope
  rw [trapCount_append, add_mul] at sump sums
  have EP : 0 ≤ extraOver wp fp pp bp gp mp (nr + op) :=
    extraSlope_nonneg (div_nonneg (by linarith) (by linarith)) (div_nonneg (by linarith) (by linarith)) _
  have ES : 0 ≤ extraOver ws fs ps bs gs ms (nc + os) :=
    extraSlope_nonneg (div_nonneg (by linarith) (by linarith)) (div_nonneg (by linarith) (by linarith)) _
  have EP2 : extraOver wp fp pp bp gp mp (nr + op) ≤ 2 :=
    extraSlope_le (l := 4 * kp) (by linarith) (by linarith) (by linarith) hkp _ qp1
  refine ⟨by rw [hE]; linarith, hbp.fewer slp (by rw [trapCount_append]; linarith [hp.rest_nonneg]),
    hbs.fewer sls (by rw [trapCount_append]; linarith [hs.rest_nonneg]), fun x hx => ?_⟩
  rw [hE]
  exact expressed_image (hp.extra_near hp' hbp rfl rfl hkp qp1) (hs.extra_near hs' hbs rfl rfl hks qs1) hbp.low_nonneg ⟨EP, EP2⟩ ES x hx

/-- **C123**, superposition: parallel clocking of an image over a background. With `l = 4 T s`, `T` being the traps per pixel of a list and
`s` the greatest volume per electron of clouds of `b` electrons or more, the image read with the traps of both lists differs from the
image with the changes of both lists added by at most `crossSlope (l₁/(1-l₁)) (l₂/(1-l₂)) N` times the charge. -/
theorem C123_parallel (h : NotchObjects wp fp pp dp (gp ++ mp) ip cp op par) (h₁ : NotchObjects wp fp pp dp gp ip cp op par')
    (h₂ : NotchObjects wp fp pp dp mp ip cp op par'') (img : Image ℝ) (hnr : 0 < img.nr)
    (hb : OverNotch wp fp pp (gp ++ mp) (img.nr + op) bp lp left kp) (hkp : 4 * kp < 1) (himg : img.AtLeast lp) {l₁ l₂ : ℝ}
    (hl₁ : l₁ = 4 * (trapCount gp * notchSlope wp fp pp bp)) (hl₂ : l₂ = 4 * (trapCount mp * notchSlope wp fp pp bp)) :
    ∃ out out₁ out₂ roes, addCtiPy img par .all .absent .all none = .ok (out, roes) ∧
      addCtiPy img par' .all .absent .all none = .ok (out₁, roes) ∧
      addCtiPy img par'' .all .absent .all none = .ok (out₂, roes) ∧
      out.SameShape img ∧ out₁.SameShape img ∧ out₂.SameShape img ∧
      out.dist (img.addChanges out₁ out₂) ≤ crossSlope (l₁ / (1 - l₁)) (l₂ / (1 - l₂)) (img.nr + op) * img.total := by
  have hsl := (h.law hb.pos).lip.nonneg_slope
  have hb₁ : OverNotch wp fp pp gp (img.nr + op) bp lp left kp :=
    hb.fewer hsl (by rw [trapCount_append]; linarith [h₂.count_nonneg])
  have hb₂ : OverNotch wp fp pp mp (img.nr + op) bp lp left kp :=
    hb.fewer hsl (by rw [trapCount_append]; linarith [h₁.count_nonneg])
  obtain ⟨out, e1, e2, e3, -, e4⟩ := C116_parallel h img hnr hb himg
  obtain ⟨out₁, p1, p2, p3, -, p4⟩ := C116_parallel h₁ img hnr hb₁ himg
  obtain ⟨out₂, q1, q2, q3, -, q4⟩ := C116_parallel h₂ img hnr hb₂ himg
  refine ⟨out, out₁, out₂, _, e1, p1, q1, ⟨e2, e3⟩, ⟨p2, p3⟩, ⟨q2, q3⟩, ?_⟩
  rw [Image.dist_columns, e2, e3]
  have htot : img.total = ∑ c ∈ Finset.range img.nc, ∑ r ∈ Finset.range img.nr, img.px r c := by
    unfold Image.total; rw [Finset.sum_comm]
  rw [htot, Finset.mul_sum]
  refine Finset.sum_le_sum fun c hc => ?_
  have hc' := Finset.mem_range.1 hc
  refine le_trans (le_of_eq ?_) (h.superpose h₁ h₂ hb hl₁ hl₂ hkp (fun r => img.px r c) fun r hr => himg r hr c hc')
  unfold colDist
  refine Finset.sum_congr rfl fun r hr => ?_
  have hr' := Finset.mem_range.1 hr
  simp only [Image.addChanges]
  rw [e4 r hr' c hc', p4 r hr' c hc', q4 r hr' c hc']
  congr 1
  ring

/-- **C123**: `add_cti` with the groups `gp ++ mp` and `gs ++ ms` and with `gp` and `gs` only, over a background that is kept with all
traps. -/
theorem C123_add_cti (hp : NotchObjects wp fp pp dp (gp ++ mp) ip cp op par) (hs : NotchObjects ws fs ps ds (gs ++ ms) is cs os ser)
    (hp' : NotchObjects wp fp pp dp gp ip cp op par') (hs' : NotchObjects ws fs ps ds gs is cs os ser') (img : Image ℝ)
    (hnr : 0 < img.nr) (hnc : 0 < img.nc)
    (hbp : OverNotch wp fp pp (gp ++ mp) (img.nr + op) bp lp ls kp)
    (hbs : OverNotch ws fs ps (gs ++ ms) (img.nc + os) bs ls left ks) (hkp : 4 * kp < 1) (hks : 4 * ks < 1)
    (hq : q = (1 / (1 - 4 * kp)) ^ (img.nr + op) * (1 / (1 - 4 * ks)) ^ (img.nc + os) - 1) (hq1 : q < 1)
    (hE : E = 2 * extraOver wp fp pp bp gp mp (img.nr + op) + 3 * extraOver ws fs ps bs gs ms (img.nc + os))
    (himg : img.AtLeast lp) :
    ∃ out out' roes, addCtiPy img par .all ser .all none = .ok (out, roes) ∧
      addCtiPy img par' .all ser' .all none = .ok (out', roes) ∧ out.SameShape img ∧ out'.SameShape img ∧
      out.dist out' ≤ E * img.total := by
  obtain ⟨-, hbp', hbs', key⟩ := leftOut_notched hp hs hp' hs' hbp hbs hkp hks hq hq1 hE
  obtain ⟨out, b1, b2, b3, -, b4⟩ := C116_add_cti hp hs img hnr hnc hbp hbs himg
  obtain ⟨out', a1, a2, a3, -, a4⟩ := C116_add_cti hp' hs' img hnr hnc hbp' hbs' himg
  refine ⟨out, out', _, b1, a1, ⟨b2, b3⟩, ⟨a2, a3⟩, le_trans (le_of_eq ?_) (key img.px himg)⟩
  unfold Image.dist
  rw [b2, b3]
  refine Finset.sum_congr rfl fun r hr => Finset.sum_congr rfl fun c hc => ?_
  rw [b4 r (Finset.mem_range.1 hr) c (Finset.mem_range.1 hc), a4 r (Finset.mem_range.1 hr) c (Finset.mem_range.1 hc)]

/-- **C123**, traps left out: the image was made with the groups `gp ++ mp` and `gs ++ ms` and is corrected with `gp` and `gs`. -/
theorem C123_missing (hp : NotchObjects wp fp pp dp (gp ++ mp) ip cp op par) (hs : NotchObjects ws fs ps ds (gs ++ ms) is cs os ser)
    (hp' : NotchObjects wp fp pp dp gp ip cp op par') (hs' : NotchObjects ws fs ps ds gs is cs os ser') (truth : Image ℝ)
    (hnr : 0 < truth.nr) (hnc : 0 < truth.nc)
    (hbp : OverNotch wp fp pp (gp ++ mp) (truth.nr + op) bp lp ls kp)
    (hbs : OverNotch ws fs ps (gs ++ ms) (truth.nc + os) bs ls left ks) (hkp : 4 * kp < 1) (hks : 4 * ks < 1)
    (hq : q = (1 / (1 - 4 * kp)) ^ (truth.nr + op) * (1 / (1 - 4 * ks)) ^ (truth.nc + os) - 1) (hq1 : q < 1)
    (hE : E = 2 * extraOver wp fp pp bp gp mp (truth.nr + op) + 3 * extraOver ws fs ps bs gs ms (truth.nc + os))
    (ht0 : truth.AtLeast lp)
    (htruth : ∀ r < truth.nr, ∀ c < truth.nc, lp + (q * truth.total + E * truth.total / (1 - q)) ≤ truth.px r c) :
    ∃ img roes, addCtiPy truth par .all ser .all none = .ok (img, roes) ∧
      ∀ n, ∃ out, removeCtiPy img n par' .all ser' .all none = .ok (out, par'.roe, ser'.roe) ∧ out.SameShape truth ∧
        out.dist truth ≤ q ^ (n + 1) * truth.total + E * truth.total / (1 - q) := by
  obtain ⟨hE0, hbp', hbs', key⟩ := leftOut_notched hp hs hp' hs' hbp hbs hkp hks hq hq1 hE
  have hpos : 0 ≤ truth.total := Finset.sum_nonneg fun r hr => Finset.sum_nonneg fun c hc =>
    hbp.low_nonneg.trans (ht0 r (Finset.mem_range.1 hr) c (Finset.mem_range.1 hc))
  refine remove_notched hp hs hp' hs' truth hnr hnc hbp hbs hbp' hbs' hkp hks hq hq1 hpos (mul_nonneg hE0 hpos) ?_ htruth
  simp only [abs_sub_comm (Ref.stepReadout (Ref.fullStep (notchFill ws fs ps) ds) (gs.map Ref.fullOf) _ _ _)]
  exact key truth.px ht0

/-- **C123**, too many traps: the image was made with the groups `gp` and `gs` and is corrected with `gp ++ mp` and `gs ++ ms`. -/
theorem C123_surplus (hp : NotchObjects wp fp pp dp (gp ++ mp) ip cp op par) (hs : NotchObjects ws fs ps ds (gs ++ ms) is cs os ser)
    (hp' : NotchObjects wp fp pp dp gp ip cp op par') (hs' : NotchObjects ws fs ps ds gs is cs os ser') (truth : Image ℝ)
    (hnr : 0 < truth.nr) (hnc : 0 < truth.nc)
    (hbp : OverNotch wp fp pp (gp ++ mp) (truth.nr + op) bp lp ls kp)
    (hbs : OverNotch ws fs ps (gs ++ ms) (truth.nc + os) bs ls left ks) (hkp : 4 * kp < 1) (hks : 4 * ks < 1)
    (hq : q = (1 / (1 - 4 * kp)) ^ (truth.nr + op) * (1 / (1 - 4 * ks)) ^ (truth.nc + os) - 1) (hq1 : q < 1)
    (hE : E = 2 * extraOver wp fp pp bp gp mp (truth.nr + op) + 3 * extraOver ws fs ps bs gs ms (truth.nc + os))
    (ht0 : truth.AtLeast lp)
    (htruth : ∀ r < truth.nr, ∀ c < truth.nc, lp + (q * truth.total + E * truth.total / (1 - q)) ≤ truth.px r c) :
    ∃ img roes, addCtiPy truth par' .all ser' .all none = .ok (img, roes) ∧
      ∀ n, ∃ out, removeCtiPy img n par .all ser .all none = .ok (out, par.roe, ser.roe) ∧ out.SameShape truth ∧
        out.dist truth ≤ q ^ (n + 1) * truth.total + E * truth.total / (1 - q) := by
  obtain ⟨hE0, hbp', hbs', key⟩ := leftOut_notched hp hs hp' hs' hbp hbs hkp hks hq hq1 hE
  have hpos : 0 ≤ truth.total := Finset.sum_nonneg fun r hr => Finset.sum_nonneg fun c hc =>
    hbp.low_nonneg.trans (ht0 r (Finset.mem_range.1 hr) c (Finset.mem_range.1 hc))
  exact remove_notched hp' hs' hp hs truth hnr hnc hbp' hbs' hbp hbs hkp hks hq hq1 hpos (mul_nonneg hE0 hpos)
    (key truth.px ht0) htruth

end main

/-! ### cases -/

section cases
variable (d d' d'' : PyDirection) (hd : d = ⟨some ⟨[1], [1050], [1 / 2], [50], [.num 1050]⟩, some (.standard [1] true true true false),
    some (.list ([[.logNormalTrap 0.1 3 (1 / 2)], [.trap 0.1 2 0.1 false], [.instant 0.1 5 false]].map .group)), 0, 2⟩)
  (hd' : d' = ⟨some ⟨[1], [1050], [1 / 2], [50], [.num 1050]⟩, some (.standard [1] true true true false),
    some (.list ([[.logNormalTrap 0.1 3 (1 / 2)], [.trap 0.1 2 0.1 false]].map .group)), 0, 2⟩)
  (hd'' : d'' = ⟨some ⟨[1], [1050], [1 / 2], [50], [.num 1050]⟩, some (.standard [1] true true true false),
    some (.list ([[.instant 0.1 5 false]].map .group)), 0, 2⟩)

include hd in
theorem exNotch_all : NotchObjects 50 1050 (1 / 2) 1
    ([[.logNormalTrap 0.1 3 (1 / 2)], [.trap 0.1 2 0.1 false]] ++ [[.instant 0.1 5 false]]) false
    ⟨[1], [1050], [1 / 2], [50], [.num 1050]⟩ 2 d := by
  rw [hd]; exact exNotch

include hd' in
theorem exNotch_some : NotchObjects 50 1050 (1 / 2) 1 [[.logNormalTrap 0.1 3 (1 / 2)], [.trap 0.1 2 0.1 false]] false
    ⟨[1], [1050], [1 / 2], [50], [.num 1050]⟩ 2 d' :=
  ⟨hd', exNotch.phase, exNotch.notch, exNotch.power, exNotch.dwell, by simp, fun l hl => exNotch.groups.2 l (by
    simp only [List.mem_cons, List.not_mem_nil, or_false] at hl ⊢
    rcases hl with h | h
    · exact Or.inl h
    · exact Or.inr (Or.inl h))⟩

theorem exNotch_counts : trapCount [[.logNormalTrap 0.1 3 (1 / 2)], [.trap 0.1 2 0.1 false]] = 0.2 ∧
    trapCount [[.instant 0.1 5 false]] = 0.1 := by
  constructor
  · simp [trapCount, Trap.density, Trap.logNormalTrap]; norm_num
  · simp [trapCount, Trap.density]

theorem exNotch_over {n : ℕ} {low left : ℝ} (h1 : 112.5 ≤ (1 - 0.0012) ^ n * low) (h2 : left ≤ (1 - 0.0012) ^ n * low) :
    OverNotch 50 1050 (1 / 2) ([[.logNormalTrap 0.1 3 (1 / 2)], [.trap 0.1 2 0.1 false]] ++ [[.instant 0.1 5 false]]) n 112.5 low
      left 0.0012 :=
  ⟨by norm_num, by norm_num, by rw [trapCount_append, exNotch_counts.1, exNotch_counts.2, exNotch_slope]; norm_num, by norm_num, h1, h2⟩

include hd hd' in
/-- Three rows and two columns of 300 electrons, a notch of 50 electrons, `well_fill_power = 1/2`, traps of all classes. The traps with
instant capture are missing from the description used for the correction: after three iterations the image is within 70 of 1800
electrons of the true one. -/
example : ∃ img roes out, addCtiPy ⟨3, 2, fun _ _ => 300⟩ d .all d .all none = .ok (img, roes) ∧
    removeCtiPy img 3 d' .all d' .all none = .ok (out, d'.roe, d'.roe) ∧ out.dist ⟨3, 2, fun _ _ => 300⟩ ≤ 70 := by
  have h := exNotch_all d hd
  have h' := exNotch_some d' hd'
  obtain ⟨q, hq⟩ : ∃ q : ℝ, q = (1 / (1 - 4 * 0.0012)) ^ (3 + 2) * (1 / (1 - 4 * 0.0012)) ^ (2 + 2) - 1 := ⟨_, rfl⟩
  have hq0 : 0 ≤ q := by rw [hq]; norm_num
  have hq1 : q ≤ 0.045 := by rw [hq]; norm_num
  have htot : Image.total (⟨3, 2, fun _ _ => 300⟩ : Image ℝ) = 1800 := by
    simp [Image.total]; norm_num
  obtain ⟨E, hE⟩ : ∃ E : ℝ, E =
      2 * extraOver 50 1050 (1 / 2) 112.5 [[.logNormalTrap 0.1 3 (1 / 2)], [.trap 0.1 2 0.1 false]] [[.instant 0.1 5 false]] (3 + 2) +
      3 * extraOver 50 1050 (1 / 2) 112.5 [[.logNormalTrap 0.1 3 (1 / 2)], [.trap 0.1 2 0.1 false]] [[.instant 0.1 5 false]] (2 + 2) :=
    ⟨_, rfl⟩
  have hE1 : E ≤ 0.0365 := by
    rw [hE]
    unfold extraOver extraSlope
    rw [exNotch_counts.1, exNotch_counts.2, exNotch_slope]
    norm_num
  have hfrac : E * 1800 / (1 - q) ≤ 69 := by
    rw [div_le_iff₀ (by linarith)]
    linarith
  obtain ⟨img, roes, g1, G⟩ := C123_missing (lp := 120) (ls := 115) (left := 112.5) h h h' h'
    (⟨3, 2, fun _ _ => 300⟩ : Image ℝ) (by norm_num) (by norm_num) (exNotch_over (by norm_num) (by norm_num))
    (exNotch_over (by norm_num) (by norm_num)) (by norm_num) (by norm_num) hq (by linarith) hE (fun r hr c hc => by norm_num)
    (fun r hr c hc => by
      rw [htot]
      simp only
      linarith)
  obtain ⟨out, g2, -, g3⟩ := G 3
  refine ⟨img, roes, out, g1, g2, g3.trans ?_⟩
  rw [htot]
  have e : q ^ (3 + 1) ≤ 0.045 ^ (3 + 1) := pow_le_pow_left₀ hq0 hq1 _
  norm_num at e ⊢
  linarith

include hd hd' hd'' in
/-- The changes made by the traps with instant capture and by the others add up to within 0.2 of 1800 electrons. -/
example : ∃ out out₁ out₂ roes, addCtiPy ⟨3, 2, fun _ _ => 300⟩ d .all .absent .all none = .ok (out, roes) ∧
    addCtiPy ⟨3, 2, fun _ _ => 300⟩ d' .all .absent .all none = .ok (out₁, roes) ∧
    addCtiPy ⟨3, 2, fun _ _ => 300⟩ d'' .all .absent .all none = .ok (out₂, roes) ∧
    out.dist (Image.addChanges ⟨3, 2, fun _ _ => 300⟩ out₁ out₂) ≤ 0.2 := by
  have h := exNotch_all d hd
  have h' := exNotch_some d' hd'
  have h'' : NotchObjects 50 1050 (1 / 2) 1 [[.instant 0.1 5 false]] false ⟨[1], [1050], [1 / 2], [50], [.num 1050]⟩ 2 d'' := by
    rw [hd'']; exact h.rest (by simp)
  have htot : Image.total (⟨3, 2, fun _ _ => 300⟩ : Image ℝ) = 1800 := by
    simp [Image.total]; norm_num
  obtain ⟨out, out₁, out₂, roes, g1, g2, g3, -, -, -, g4⟩ := C123_parallel (lp := 120) (left := 115) h h' h''
    (⟨3, 2, fun _ _ => 300⟩ : Image ℝ) (by norm_num) (exNotch_over (by norm_num) (by norm_num)) (by norm_num)
    (fun r hr c hc => by norm_num) rfl rfl
  refine ⟨out, out₁, out₂, roes, g1, g2, g3, g4.trans ?_⟩
  rw [htot, exNotch_counts.1, exNotch_counts.2, exNotch_slope]
  unfold crossSlope
  norm_num

end cases

end Arctic
