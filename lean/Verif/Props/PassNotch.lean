import Verif.Props.ReachNotch

/-!
# C126 — over a background with a notch, remove_cti passes charge above the full well through
-/

set_option linter.unusedSectionVars false
set_option linter.unusedVariables false

namespace Arctic

/-- Iterations of a map that cannot tell pixels of `M` and more from each other, for images of at least `low` electrons. -/
theorem removeIter_apart_above {S : Type} (add : Image ℝ → S → Except Err (Image ℝ × S)) (s : S) (img img' : Image ℝ) (B : ℕ → ℕ → ℝ)
    (M low : ℝ) (hsh' : img'.SameShape img)
    (hadd : ∀ x x' : Image ℝ, x.SameShape img → x'.SameShape img → x.AtLeast low → x'.AtLeast low →
      (∀ r < img.nr, ∀ c < img.nc, x'.px r c = x.px r c + (img'.px r c - img.px r c) ∧
        (img'.px r c = img.px r c ∨ (M + B r c ≤ x.px r c ∧ M + B r c ≤ x'.px r c))) →
      ∃ y y', add x s = .ok (y, s) ∧ add x' s = .ok (y', s) ∧ y.SameShape img ∧ y'.SameShape img ∧
        ∀ r < img.nr, ∀ c < img.nc, |y.px r c - x.px r c| ≤ B r c ∧ |y'.px r c - x'.px r c| ≤ B r c ∧
          y'.px r c = y.px r c + (img'.px r c - img.px r c))
    (hlow : ∀ r < img.nr, ∀ c < img.nc, low + B r c ≤ img.px r c ∧ low + B r c ≤ img'.px r c)
    (hd : ∀ r < img.nr, ∀ c < img.nc, img'.px r c = img.px r c ∨
      (M + 2 * B r c ≤ img.px r c ∧ M + 2 * B r c ≤ img'.px r c)) :
    ∀ (n : ℕ) (cur cur' : Image ℝ), cur.SameShape img → cur'.SameShape img →
      (∀ r < img.nr, ∀ c < img.nc, |cur.px r c - img.px r c| ≤ B r c ∧ |cur'.px r c - img'.px r c| ≤ B r c ∧
        cur'.px r c = cur.px r c + (img'.px r c - img.px r c)) →
      ∃ out out', removeIter add img n (cur, s) = .ok (out, s) ∧ removeIter add img' n (cur', s) = .ok (out', s) ∧
        out.SameShape img ∧ out'.SameShape img ∧
        ∀ r < img.nr, ∀ c < img.nc, out'.px r c = out.px r c + (img'.px r c - img.px r c) := by
  intro n
  induction n with
  | zero => intro cur cur' h1 h2 h3; exact ⟨cur, cur', rfl, rfl, h1, h2, fun r hr c hc => (h3 r hr c hc).2.2⟩
  | succ n ih =>
    intro cur cur' h1 h2 h3
    have floor : ∀ r < img.nr, ∀ c < img.nc, low ≤ cur.px r c ∧ low ≤ cur'.px r c := by
      intro r hr c hc
      obtain ⟨a, b, -⟩ := h3 r hr c hc
      obtain ⟨u, v⟩ := hlow r hr c hc
      have := (abs_le.1 a).1
      have := (abs_le.1 b).1
      constructor <;> linarith
    obtain ⟨y, y', g1, g2, g3, g4, g5⟩ := hadd cur cur' h1 h2
      (fun r hr c hc => (floor r (by rw [← h1.1]; exact hr) c (by rw [← h1.2]; exact hc)).1)
      (fun r hr c hc => (floor r (by rw [← h2.1]; exact hr) c (by rw [← h2.2]; exact hc)).2) (fun r hr c hc => by
        obtain ⟨a, b, e⟩ := h3 r hr c hc
        refine ⟨e, (hd r hr c hc).imp_right fun ⟨u, v⟩ => ?_⟩
        have := (abs_le.1 a).1
        have := (abs_le.1 b).1
        constructor <;> linarith)
    simp only [removeIter, bind, Except.bind, g1, g2]
    refine ih _ _ h1 h2 fun r hr c hc => ?_
    obtain ⟨a, b, e⟩ := g5 r hr c hc
    obtain ⟨-, -, e'⟩ := h3 r hr c hc
    simp only
    refine ⟨?_, ?_, by rw [e, e']; ring⟩
    · rw [abs_sub_comm] at a
      refine le_trans (le_of_eq ?_) a
      congr 1; ring
    · rw [abs_sub_comm] at b
      refine le_trans (le_of_eq ?_) b
      congr 1; ring

section main
variable {wp ws fp fs pp ps dp ds : ℝ} {gp gs : List (List Trap)} {ip is : Bool} {cp cs : CCD} {op os : ℕ}
  {par ser : PyDirection} {bp bs lp ls left kp ks : ℝ}

/-- **C126**: `remove_cti` with any number of iterations of two images over a background. Where the images differ, let both hold `M`
electrons and twice what the traps can take, where `M` is at least the full well depths and `b` of both directions: then the difference is
passed on unchanged. -/
theorem C126_remove_cti (hp : NotchObjects wp fp pp dp gp ip cp op par) (hs : NotchObjects ws fs ps ds gs is cs os ser)
    (img img' : Image ℝ) (hnr : 0 < img.nr) (hnc : 0 < img.nc)
    (hbp : OverNotch wp fp pp gp (img.nr + op) bp lp ls kp) (hbs : OverNotch ws fs ps gs (img.nc + os) bs ls left ks)
    (hlow : ∀ r < img.nr, ∀ c < img.nc,
      lp + trapReach gp gs op os r c ≤ img.px r c ∧ lp + trapReach gp gs op os r c ≤ img'.px r c)
    {M : ℝ} (hM : max (max fp fs) (max bp bs) ≤ M)
    (hd : DifferAbove (fun r c => M + 2 * trapReach gp gs op os r c) img img') (n : ℕ) :
    ∃ out out', removeCtiPy img n par .all ser .all none = .ok (out, par.roe, ser.roe) ∧
      removeCtiPy img' n par .all ser .all none = .ok (out', par.roe, ser.roe) ∧ out.SameShape img ∧ out'.SameShape img ∧
      ∀ r < img.nr, ∀ c < img.nc, out'.px r c = out.px r c + (img'.px r c - img.px r c) := by
  have hroe : par.roe = some (.standard [dp] true true true ip) ∧ ser.roe = some (.standard [ds] true true true is) := by
    rw [hp.eq, hs.eq]; exact ⟨rfl, rfl⟩
  refine removeIter_apart_above (fun x (roes : Option (Roe ℝ) × Option (Roe ℝ)) => do
      let (y, rp, rs) ← addCtiPy x { par with roe := roes.1 } .all { ser with roe := roes.2 } .all none
      .ok (y, roes.1.map fun _ => rp, roes.2.map fun _ => rs)) (par.roe, ser.roe) img img' (trapReach gp gs op os)
    M lp ⟨hd.nr, hd.nc⟩ (fun x x' hx hx' h0 h0' hxx => ?_) hlow hd.bright n img img' ⟨rfl, rfl⟩
    ⟨hd.nr, hd.nc⟩ (fun r _ c _ => ?_)
  · obtain ⟨y, y', g1, g2, g3, g4, g5⟩ := C125_add_cti hp hs x x' h0 h0' (by rw [hx.1]; exact hnr) (by rw [hx.2]; exact hnc)
      (by rw [hx.1]; exact hbp) (by rw [hx.2]; exact hbs) hM
      ⟨hx'.1.trans hx.1.symm, hx'.2.trans hx.2.symm, fun r hr c hc => by
        obtain ⟨a, b⟩ := hxx r (by rw [← hx.1]; exact hr) c (by rw [← hx.2]; exact hc)
        refine b.imp_left fun e => ?_
        rw [a, e, sub_self, add_zero]⟩
    rw [hx.1, hx.2] at g5
    refine ⟨y, y', ?_, ?_, ⟨g3.1.trans hx.1, g3.2.trans hx.2⟩, ⟨g4.1.trans hx.1, g4.2.trans hx.2⟩, fun r hr c hc =>
      ⟨(g5 r hr c hc).1, (g5 r hr c hc).2.1, ?_⟩⟩
    · simp only [bind, Except.bind]
      rw [g1]
      simp only [hroe.1, hroe.2, Option.map_some]
    · simp only [bind, Except.bind]
      rw [g2]
      simp only [hroe.1, hroe.2, Option.map_some]
    · rw [(g5 r hr c hc).2.2, (hxx r hr c hc).1]
      ring
  · have : 0 ≤ trapReach gp gs op os r c :=
      add_nonneg (mul_nonneg hp.count_nonneg (Nat.cast_nonneg _)) (mul_nonneg hs.count_nonneg (Nat.cast_nonneg _))
    simp only [sub_self, abs_zero]
    exact ⟨this, this, by ring⟩

/-- **C126** for parallel clocking. -/
theorem C126_parallel (hp : NotchObjects wp fp pp dp gp ip cp op par) (img img' : Image ℝ) (hnr : 0 < img.nr)
    (hbp : OverNotch wp fp pp gp (img.nr + op) bp lp left kp)
    (hlow : ∀ r < img.nr, ∀ c < img.nc,
      lp + trapCount gp * ((r + op + 1 : ℕ) : ℝ) ≤ img.px r c ∧ lp + trapCount gp * ((r + op + 1 : ℕ) : ℝ) ≤ img'.px r c)
    {M : ℝ} (hM : max fp bp ≤ M)
    (hd : DifferAbove (fun r _ => M + 2 * (trapCount gp * ((r + op + 1 : ℕ) : ℝ))) img img') (n : ℕ) :
    ∃ out out', removeCtiPy img n par .all .absent .all none = .ok (out, par.roe, none) ∧
      removeCtiPy img' n par .all .absent .all none = .ok (out', par.roe, none) ∧ out.SameShape img ∧ out'.SameShape img ∧
      ∀ r < img.nr, ∀ c < img.nc, out'.px r c = out.px r c + (img'.px r c - img.px r c) := by
  have hroe : par.roe = some (.standard [dp] true true true ip) := by rw [hp.eq]
  have e : ({ PyDirection.absent with roe := none } : PyDirection) = PyDirection.absent := rfl
  refine removeIter_apart_above (fun x (roes : Option (Roe ℝ) × Option (Roe ℝ)) => do
      let (y, rp, rs) ← addCtiPy x { par with roe := roes.1 } .all { PyDirection.absent with roe := roes.2 } .all none
      .ok (y, roes.1.map fun _ => rp, roes.2.map fun _ => rs)) (par.roe, none) img img'
    (fun r _ => trapCount gp * ((r + op + 1 : ℕ) : ℝ))
    M lp ⟨hd.nr, hd.nc⟩ (fun x x' hx hx' h0 h0' hxx => ?_) hlow hd.bright n img img' ⟨rfl, rfl⟩
    ⟨hd.nr, hd.nc⟩ (fun r _ c _ => ?_)
  · obtain ⟨y, y', g1, g2, g3, g4, g5⟩ := C125_parallel hp x x' h0 h0' (by rw [hx.1]; exact hnr)
      (by rw [hx.1]; exact hbp) hM
      ⟨hx'.1.trans hx.1.symm, hx'.2.trans hx.2.symm, fun r hr c hc => by
        obtain ⟨a, b⟩ := hxx r (by rw [← hx.1]; exact hr) c (by rw [← hx.2]; exact hc)
        refine b.imp_left fun e => ?_
        rw [a, e, sub_self, add_zero]⟩
    rw [hx.1, hx.2] at g5
    refine ⟨y, y', ?_, ?_, ⟨g3.1.trans hx.1, g3.2.trans hx.2⟩, ⟨g4.1.trans hx.1, g4.2.trans hx.2⟩, fun r hr c hc =>
      ⟨(g5 r hr c hc).1, (g5 r hr c hc).2.1, ?_⟩⟩
    · simp only [bind, Except.bind]
      rw [e, g1]
      simp only [hroe, Option.map_some, Option.map_none]
    · simp only [bind, Except.bind]
      rw [e, g2]
      simp only [hroe, Option.map_some, Option.map_none]
    · rw [(g5 r hr c hc).2.2, (hxx r hr c hc).1]
      ring
  · have : 0 ≤ trapCount gp * ((r + op + 1 : ℕ) : ℝ) := mul_nonneg hp.count_nonneg (Nat.cast_nonneg _)
    simp only [sub_self, abs_zero]
    exact ⟨this, this, by ring⟩

end main

/-! ### a case -/

/-- Three rows and two columns of 2000 electrons, and the same image with 500 electrons more in one pixel, a notch of 50 electrons, a full
well of 1050 electrons and `well_fill_power = 1/2`: `remove_cti` with ten iterations passes the 500 electrons on. -/
example (d : PyDirection) (hd : d = ⟨some ⟨[1], [1050], [1 / 2], [50], [.num 1050]⟩, some (.standard [1] true true true false),
      some (.list ([[.logNormalTrap 0.1 3 (1 / 2)], [.trap 0.1 2 0.1 false], [.instant 0.1 5 false]].map .group)), 0, 2⟩) :
    ∃ out out', removeCtiPy ⟨3, 2, fun _ _ => 2000⟩ 10 d .all d .all none = .ok (out, d.roe, d.roe) ∧
      removeCtiPy ⟨3, 2, fun r c => if r = 1 ∧ c = 0 then 2500 else 2000⟩ 10 d .all d .all none = .ok (out', d.roe, d.roe) ∧
      out'.px 1 0 = out.px 1 0 + 500 ∧ out'.px 2 1 = out.px 2 1 := by
  have h := exNotch
  rw [← hd] at h
  obtain ⟨out, out', g1, g2, -, -, g3⟩ := C126_remove_cti (bp := 112.5) (bs := 112.5) (lp := 120) (ls := 115) (left := 112.5)
    (kp := 0.0012) (ks := 0.0012) (M := 1050) h h (⟨3, 2, fun _ _ => 2000⟩ : Image ℝ)
    (⟨3, 2, fun r c => if r = 1 ∧ c = 0 then 2500 else 2000⟩ : Image ℝ) (by norm_num) (by norm_num)
    ⟨by norm_num, by norm_num, by rw [exFull_count, exNotch_slope]; norm_num, by norm_num, by norm_num, by norm_num⟩
    ⟨by norm_num, by norm_num, by rw [exFull_count, exNotch_slope]; norm_num, by norm_num, by norm_num, by norm_num⟩
    (fun r hr c hc => by
      have hr' : (r : ℝ) ≤ 3 := by exact_mod_cast (show r < 3 from hr).le
      have hc' : (c : ℝ) ≤ 2 := by exact_mod_cast (show c < 2 from hc).le
      have b : 120 + trapReach [[.logNormalTrap 0.1 3 (1 / 2)], [.trap 0.1 2 0.1 false], [.instant 0.1 5 false]]
          [[.logNormalTrap 0.1 3 (1 / 2)], [.trap 0.1 2 0.1 false], [.instant 0.1 5 false]] 2 2 r c ≤ 2000 := by
        unfold trapReach
        rw [exFull_count]
        push_cast
        norm_num
        linarith
      exact ⟨b, b.trans (by simp only; split <;> norm_num)⟩)
    (by norm_num) ⟨rfl, rfl, fun r hr c hc => by
      by_cases e : r = 1 ∧ c = 0
      · right
        rw [e.1, e.2]
        unfold trapReach
        rw [exFull_count]
        norm_num
      · left
        simp only [if_neg e]⟩ 10
  refine ⟨out, out', g1, g2, ?_, ?_⟩
  · rw [g3 1 (by norm_num) 0 (by norm_num)]
    norm_num
  · rw [g3 2 (by norm_num) 1 (by norm_num)]
    norm_num

end Arctic
