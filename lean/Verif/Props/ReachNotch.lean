import Verif.Props.OrderNotch
import Verif.Props.SaturationFull

/-!
# C125 — over a background with a notch, a pixel changes by at most one trap-full per transfer, and charge above the full well passes
-/

set_option linter.unusedSectionVars false
set_option linter.unusedVariables false

namespace Arctic

theorem visitsOf_absent {todo : List (ℕ × ℝ)} {r : ℕ} (h : r ∉ todo.map Prod.fst) : visitsOf todo r = 0 := by
  unfold visitsOf
  refine List.sum_eq_zero fun x hx => ?_
  obtain ⟨p, hp, rfl⟩ := List.mem_map.1 hx
  exact if_neg fun e : p.1 = r => h (e ▸ List.mem_map_of_mem hp)

/-- A pass visits a row once or not at all. -/
theorem visitsOf_once {todo : List (ℕ × ℝ)} {r : ℕ} (h1 : ∀ p ∈ todo, p.2 = 1) (h2 : (todo.map Prod.fst).Nodup) :
    visitsOf todo r = if r ∈ todo.map Prod.fst then 1 else 0 := by
  induction todo with
  | nil => simp [visitsOf]
  | cons p todo ih =>
    rw [List.map_cons, List.nodup_cons] at h2
    rw [visitsOf_cons]
    by_cases hp : p.1 = r
    · subst hp
      rw [visitsOf_absent h2.1, if_pos rfl, if_pos (by simp), h1 p List.mem_cons_self, add_zero]
    · rw [if_neg hp, zero_add, ih (fun q hq => h1 q (List.mem_cons_of_mem _ hq)) h2.2]
      have : r ∈ (p :: todo).map Prod.fst ↔ r ∈ todo.map Prod.fst := by
        rw [List.map_cons, List.mem_cons]
        exact ⟨fun h => h.resolve_left fun e => hp e.symm, Or.inr⟩
      simp only [this]

theorem visits_count {R : ℕ} {passes : List (List (ℕ × ℝ))} {r : ℕ} (h1 : OnePasses R passes)
    (h2 : ∀ todo ∈ passes, (todo.map Prod.fst).Nodup) : (passes.map fun t => visitsOf t r).sum = (passCount passes r : ℝ) := by
  induction passes with
  | nil => simp [passCount]
  | cons t passes ih =>
    have i := ih (fun t ht => h1 t (List.mem_cons_of_mem _ ht)) fun t ht => h2 t (List.mem_cons_of_mem _ ht)
    rw [List.map_cons, List.sum_cons, i, visitsOf_once (fun p hp => (h1 t List.mem_cons_self p hp).2) (h2 t List.mem_cons_self)]
    unfold passCount
    rw [List.countP_cons]
    by_cases hm : r ∈ t.map Prod.fst
    · rw [if_pos hm, if_pos (by simpa using hm)]; push_cast; ring
    · rw [if_neg hm, if_neg (by simpa using hm)]; push_cast; ring

section one
variable {notch full power dw : ℝ} {gs : List (List Trap)} {i : Bool} {c : CCD} {o n : ℕ} {d : PyDirection} {b low left k : ℝ}

theorem NotchObjects.apart (h : NotchObjects notch full power dw gs i c o d)
    (hb : OverNotch notch full power gs (n + o) b low left k) {F : ℝ} (hF : full ≤ F) (hbF : b ≤ F) (D x x' : ℕ → ℝ)
    (hx : ∀ r < n, low ≤ x r) (hx' : ∀ r < n, low ≤ x' r)
    (hd : ∀ r < n, x' r = x r + D r ∧ (D r = 0 ∨
      (F + trapCount gs * ((r + o + 1 : ℕ) : ℝ) ≤ x r ∧ F + trapCount gs * ((r + o + 1 : ℕ) : ℝ) ≤ x' r))) :
    ∀ r < n, Ref.stepReadout (Ref.fullStep (notchFill notch full power) dw) (gs.map Ref.fullOf) (Ref.allPasses n o) x' r =
        Ref.stepReadout (Ref.fullStep (notchFill notch full power) dw) (gs.map Ref.fullOf) (Ref.allPasses n o) x r + D r ∧
      |Ref.stepReadout (Ref.fullStep (notchFill notch full power) dw) (gs.map Ref.fullOf) (Ref.allPasses n o) x r - x r| ≤
        trapCount gs * ((r + o + 1 : ℕ) : ℝ) ∧
      |Ref.stepReadout (Ref.fullStep (notchFill notch full power) dw) (gs.map Ref.fullOf) (Ref.allPasses n o) x' r - x' r| ≤
        trapCount gs * ((r + o + 1 : ℕ) : ℝ) := by
  rw [h.lifted hb x hx, h.lifted hb x' hx']
  have lim := full_limited (dw := dw) (T := trapCount gs) (F := F) (h.law hb.pos).lip h.count_nonneg
    (by linarith [hb.slope, hb.slope_le]) (by linarith [h.notch.1, h.notch.2]) fun n hn => by
      rw [liftFill_eq (hbF.trans hn), notchFill_wellFill]
      exact wellFill_full (by linarith [h.notch.2]) (by linarith)
  have hv : ∀ r < n, ((Ref.allPasses n o).map fun t => visitsOf t r).sum = ((r + o + 1 : ℕ) : ℝ) := fun r hr => by
    rw [visits_count (allPasses_one n o) (allPasses_good n o).nodup, passCount_all n o r hr]
  have good : ∀ todo ∈ Ref.allPasses n o, ∀ p ∈ todo, p.1 < n ∧ 0 ≤ p.2 := fun t ht p hp =>
    ⟨(allPasses_one n o t ht p hp).1, by rw [(allPasses_one n o t ht p hp).2]; exact zero_le_one⟩
  obtain ⟨a, a'⟩ := lim.readout n h.few.1 (Ref.allPasses n o) D (fun _ => 0) x x' good (fun _ _ => le_rfl) fun r hr => by
    refine ⟨hb.low_nonneg.trans (hx r hr), (hd r hr).1, ?_⟩
    simp only [add_zero]
    rw [hv r hr]
    exact (hd r hr).2
  have a'' := (lim.readout n h.few.1 (Ref.allPasses n o) (fun _ => 0) (fun _ => 0) x' x' good (fun _ _ => le_rfl) fun r hr =>
    ⟨hb.low_nonneg.trans (hx' r hr), (add_zero _).symm, Or.inl rfl⟩).2
  intro r hr
  have u := a' r hr
  have v := a'' r hr
  rw [hv r hr] at u v
  exact ⟨(a r hr).2.1, u, v⟩

end one

section main
variable {wp ws fp fs pp ps dp ds : ℝ} {gp gs : List (List Trap)} {ip is : Bool} {cp cs : CCD} {op os : ℕ}
  {par ser : PyDirection} {bp bs lp ls left kp ks : ℝ}

/-- **C125**: `add_cti` of two images over a background with a notch and any `well_fill_power`. No pixel changes by more than one
trap-full per transfer. Where the images differ, let both hold `M` electrons more than this, where `M` is at least the full well depths and
`b` of both directions: then the difference is passed on unchanged. -/
theorem C125_add_cti (hp : NotchObjects wp fp pp dp gp ip cp op par) (hs : NotchObjects ws fs ps ds gs is cs os ser)
    (img img' : Image ℝ) (h0 : img.AtLeast lp) (h0' : img'.AtLeast lp) (hnr : 0 < img.nr) (hnc : 0 < img.nc)
    (hbp : OverNotch wp fp pp gp (img.nr + op) bp lp ls kp) (hbs : OverNotch ws fs ps gs (img.nc + os) bs ls left ks)
    {M : ℝ} (hM : max (max fp fs) (max bp bs) ≤ M) (hd : DifferAbove (fun r c => M + trapReach gp gs op os r c) img img') :
    ∃ out out', addCtiPy img par .all ser .all none =
        .ok (out, .standard [dp] true true true ip, .standard [ds] true true true is) ∧
      addCtiPy img' par .all ser .all none =
        .ok (out', .standard [dp] true true true ip, .standard [ds] true true true is) ∧
      out.SameShape img ∧ out'.SameShape img ∧ ∀ r < img.nr, ∀ c < img.nc,
        |out.px r c - img.px r c| ≤ trapReach gp gs op os r c ∧ |out'.px r c - img'.px r c| ≤ trapReach gp gs op os r c ∧
        out'.px r c = out.px r c + (img'.px r c - img.px r c) := by
  obtain ⟨⟨m1, m2⟩, m3, m4⟩ : (fp ≤ M ∧ fs ≤ M) ∧ bp ≤ M ∧ bs ≤ M :=
    ⟨max_le_iff.1 ((le_max_left _ _).trans hM), max_le_iff.1 ((le_max_right _ _).trans hM)⟩
  have h0i : ∀ r < img.nr, ∀ c < img.nc, lp ≤ img'.px r c := fun r hr c hc => h0' r (by rw [hd.nr]; exact hr) c (by rw [hd.nc]; exact hc)
  obtain ⟨out, g1, g2, g3, -, g4⟩ := C116_add_cti hp hs img hnr hnc hbp hbs h0
  obtain ⟨out', q1, q2, q3, -, q4⟩ := C116_add_cti hp hs img' (by rw [hd.nr]; exact hnr) (by rw [hd.nc]; exact hnc)
    (by rw [hd.nr]; exact hbp) (by rw [hd.nc]; exact hbs) h0'
  rw [hd.nr, hd.nc] at q4
  refine ⟨out, out', g1, q1, ⟨g2, g3⟩, ⟨q2.trans hd.nr, q3.trans hd.nc⟩, fun r hr c hc => ?_⟩
  rw [g4 r hr c hc, q4 r hr c hc]
  have ks0 := hs.count_nonneg
  have P := fun c (hc : c < img.nc) => hp.apart hbp (F := M + trapCount gs * ((c + os + 1 : ℕ) : ℝ))
    (by have := mul_nonneg ks0 (Nat.cast_nonneg (α := ℝ) (c + os + 1)); linarith)
    (by have := mul_nonneg ks0 (Nat.cast_nonneg (α := ℝ) (c + os + 1)); linarith)
    (fun r => img'.px r c - img.px r c) (fun r => img.px r c) (fun r => img'.px r c) (fun r hr => h0 r hr c hc)
    (fun r hr => h0i r hr c hc) fun r hr => ⟨by ring, (hd.bright r hr c hc).imp (fun e => by rw [e, sub_self]) fun ⟨u, v⟩ => by
      unfold trapReach at u v
      constructor <;> linarith⟩
  obtain ⟨a1, a2, a3⟩ := hs.apart hbs m2 m4 (fun c => img'.px r c - img.px r c)
    (fun c => Ref.stepReadout (Ref.fullStep (notchFill wp fp pp) dp) (gp.map Ref.fullOf) (Ref.allPasses img.nr op) (fun r => img.px r c) r)
    (fun c => Ref.stepReadout (Ref.fullStep (notchFill wp fp pp) dp) (gp.map Ref.fullOf) (Ref.allPasses img.nr op) (fun r => img'.px r c) r)
    (fun c hc => hp.floor hbp (fun r => img.px r c) (fun r hr => h0 r hr c hc) r hr)
    (fun c hc => hp.floor hbp (fun r => img'.px r c) (fun r hr => h0i r hr c hc) r hr)
    (fun c hc => ⟨(P c hc r hr).1, (hd.bright r hr c hc).imp (fun e => by rw [e, sub_self]) fun ⟨u, v⟩ => by
      have v1 := (abs_le.1 (P c hc r hr).2.1).1
      have v2 := (abs_le.1 (P c hc r hr).2.2).1
      unfold trapReach at u v
      constructor <;> linarith⟩) c hc
  obtain ⟨-, b2, b3⟩ := P c hc r hr
  unfold trapReach
  refine ⟨?_, ?_, a1⟩
  · exact (abs_sub_le _ (Ref.stepReadout (Ref.fullStep (notchFill wp fp pp) dp) (gp.map Ref.fullOf) (Ref.allPasses img.nr op) (fun r => img.px r c) r) _).trans (by linarith)
  · exact (abs_sub_le _ (Ref.stepReadout (Ref.fullStep (notchFill wp fp pp) dp) (gp.map Ref.fullOf) (Ref.allPasses img.nr op) (fun r => img'.px r c) r) _).trans (by linarith)

/-- Iterations of a map that changes no pixel by more than `B`, for images of at least `low` electrons. -/
theorem removeIter_reach_above {S : Type} (add : Image ℝ → S → Except Err (Image ℝ × S)) (s : S) (img : Image ℝ) (B : ℕ → ℕ → ℝ)
    (low : ℝ) (hadd : ∀ x : Image ℝ, x.SameShape img → x.AtLeast low → ∃ y, add x s = .ok (y, s) ∧ y.SameShape img ∧
      ∀ r < img.nr, ∀ c < img.nc, |y.px r c - x.px r c| ≤ B r c) :
    ∀ (n : ℕ) (cur : Image ℝ), cur.SameShape img → cur.AtLeast low →
      (∀ r < img.nr, ∀ c < img.nc, |cur.px r c - img.px r c| ≤ B r c) →
      (n ≤ 1 ∨ ∀ r < img.nr, ∀ c < img.nc, low + B r c ≤ img.px r c) →
      ∃ out, removeIter add img n (cur, s) = .ok (out, s) ∧ out.SameShape img ∧
        ∀ r < img.nr, ∀ c < img.nc, |out.px r c - img.px r c| ≤ B r c := by
  intro n
  induction n with
  | zero => intro cur hsh _ hc _; exact ⟨cur, rfl, hsh, hc⟩
  | succ n ih =>
    intro cur hsh h0 hc hn
    obtain ⟨y, g1, g2, g3⟩ := hadd cur hsh h0
    have near : ∀ r < img.nr, ∀ c < img.nc, |cur.px r c + (img.px r c - y.px r c) - img.px r c| ≤ B r c := by
      intro r hr c hc'
      have := g3 r hr c hc'
      rw [abs_sub_comm] at this
      refine le_trans (le_of_eq ?_) this
      congr 1
      ring
    simp only [removeIter, bind, Except.bind, g1]
    rcases Nat.eq_zero_or_pos n with hz | hz
    · subst hz
      exact ⟨_, rfl, hsh, near⟩
    · rcases hn with hn | hn
      · omega
      · refine ih _ hsh (fun r hr c hc' => ?_) near (Or.inr hn)
        have hr' : r < img.nr := by rw [← hsh.1]; exact hr
        have hc'' : c < img.nc := by rw [← hsh.2]; exact hc'
        have e1 := (abs_le.1 (near r hr' c hc'')).1
        have e2 := hn r hr' c hc''
        simp only
        linarith

/-- **C125** for `remove_cti`: one iteration changes no pixel by more than one trap-full per transfer, and neither does any number of
iterations if the pixels hold this much more than the background. -/
theorem C125_remove_cti (hp : NotchObjects wp fp pp dp gp ip cp op par) (hs : NotchObjects ws fs ps ds gs is cs os ser)
    (img : Image ℝ) (h0 : img.AtLeast lp) (hnr : 0 < img.nr) (hnc : 0 < img.nc)
    (hbp : OverNotch wp fp pp gp (img.nr + op) bp lp ls kp) (hbs : OverNotch ws fs ps gs (img.nc + os) bs ls left ks)
    (n : ℕ) (hn : n ≤ 1 ∨ ∀ r < img.nr, ∀ c < img.nc, lp + trapReach gp gs op os r c ≤ img.px r c) :
    ∃ out, removeCtiPy img n par .all ser .all none = .ok (out, par.roe, ser.roe) ∧ out.SameShape img ∧
      ∀ r < img.nr, ∀ c < img.nc, |out.px r c - img.px r c| ≤ trapReach gp gs op os r c := by
  have hroe : par.roe = some (.standard [dp] true true true ip) ∧ ser.roe = some (.standard [ds] true true true is) := by
    rw [hp.eq, hs.eq]; exact ⟨rfl, rfl⟩
  refine removeIter_reach_above (fun x (roes : Option (Roe ℝ) × Option (Roe ℝ)) => do
      let (y, rp, rs) ← addCtiPy x { par with roe := roes.1 } .all { ser with roe := roes.2 } .all none
      .ok (y, roes.1.map fun _ => rp, roes.2.map fun _ => rs)) (par.roe, ser.roe) img (trapReach gp gs op os) lp
    (fun x hx h1 => ?_) n img ⟨rfl, rfl⟩ h0 (fun r _ c _ => by
      rw [sub_self, abs_zero]
      exact add_nonneg (mul_nonneg hp.count_nonneg (Nat.cast_nonneg _)) (mul_nonneg hs.count_nonneg (Nat.cast_nonneg _))) hn
  obtain ⟨y, y', g1, -, g2, -, g3⟩ := C125_add_cti hp hs x x h1 h1 (by rw [hx.1]; exact hnr) (by rw [hx.2]; exact hnc)
    (by rw [hx.1]; exact hbp) (by rw [hx.2]; exact hbs) le_rfl ⟨rfl, rfl, fun _ _ _ _ => Or.inl rfl⟩
  rw [hx.1, hx.2] at g3
  refine ⟨y, ?_, ⟨g2.1.trans hx.1, g2.2.trans hx.2⟩, fun r hr c hc => (g3 r hr c hc).1⟩
  simp only [bind, Except.bind]
  rw [g1]
  simp only [hroe.1, hroe.2, Option.map_some]

/-- **C125** for parallel clocking. -/
theorem C125_parallel (hp : NotchObjects wp fp pp dp gp ip cp op par) (img img' : Image ℝ) (h0 : img.AtLeast lp)
    (h0' : img'.AtLeast lp) (hnr : 0 < img.nr) (hbp : OverNotch wp fp pp gp (img.nr + op) bp lp left kp)
    {M : ℝ} (hM : max fp bp ≤ M) (hd : DifferAbove (fun r _ => M + trapCount gp * ((r + op + 1 : ℕ) : ℝ)) img img') :
    ∃ out out', addCtiPy img par .all .absent .all none = .ok (out, .standard [dp] true true true ip, Roe.default) ∧
      addCtiPy img' par .all .absent .all none = .ok (out', .standard [dp] true true true ip, Roe.default) ∧
      out.SameShape img ∧ out'.SameShape img ∧ ∀ r < img.nr, ∀ c < img.nc,
        |out.px r c - img.px r c| ≤ trapCount gp * ((r + op + 1 : ℕ) : ℝ) ∧
        |out'.px r c - img'.px r c| ≤ trapCount gp * ((r + op + 1 : ℕ) : ℝ) ∧
        out'.px r c = out.px r c + (img'.px r c - img.px r c) := by
  have h0i : ∀ r < img.nr, ∀ c < img.nc, lp ≤ img'.px r c := fun r hr c hc => h0' r (by rw [hd.nr]; exact hr) c (by rw [hd.nc]; exact hc)
  obtain ⟨out, g1, g2, g3, -, g4⟩ := C116_parallel hp img hnr hbp h0
  obtain ⟨out', q1, q2, q3, -, q4⟩ := C116_parallel hp img' (by rw [hd.nr]; exact hnr) (by rw [hd.nr]; exact hbp) h0'
  rw [hd.nr, hd.nc] at q4
  refine ⟨out, out', g1, q1, ⟨g2, g3⟩, ⟨q2.trans hd.nr, q3.trans hd.nc⟩, fun r hr c hc => ?_⟩
  rw [g4 r hr c hc, q4 r hr c hc]
  obtain ⟨a1, a2, a3⟩ := hp.apart hbp ((le_max_left _ _).trans hM) ((le_max_right _ _).trans hM)
    (fun r => img'.px r c - img.px r c) (fun r => img.px r c) (fun r => img'.px r c) (fun r hr => h0 r hr c hc)
    (fun r hr => h0i r hr c hc) (fun r hr => ⟨by ring, (hd.bright r hr c hc).imp_left fun e => by rw [e, sub_self]⟩) r hr
  exact ⟨a2, a3, a1⟩

/-- **C125** for `remove_cti` with parallel clocking. -/
theorem C125_remove_parallel (hp : NotchObjects wp fp pp dp gp ip cp op par)
    (img : Image ℝ) (h0 : img.AtLeast lp) (hnr : 0 < img.nr)
    (hbp : OverNotch wp fp pp gp (img.nr + op) bp lp left kp)
    (n : ℕ) (hn : n ≤ 1 ∨ ∀ r < img.nr, ∀ c < img.nc, lp + trapCount gp * ((r + op + 1 : ℕ) : ℝ) ≤ img.px r c) :
    ∃ out, removeCtiPy img n par .all .absent .all none = .ok (out, par.roe, none) ∧ out.SameShape img ∧
      ∀ r < img.nr, ∀ c < img.nc, |out.px r c - img.px r c| ≤ trapCount gp * ((r + op + 1 : ℕ) : ℝ) := by
  have hroe : par.roe = some (.standard [dp] true true true ip) := by rw [hp.eq]
  refine removeIter_reach_above (fun x (roes : Option (Roe ℝ) × Option (Roe ℝ)) => do
      let (y, rp, rs) ← addCtiPy x { par with roe := roes.1 } .all { PyDirection.absent with roe := roes.2 } .all none
      .ok (y, roes.1.map fun _ => rp, roes.2.map fun _ => rs)) (par.roe, none) img
    (fun r _ => trapCount gp * ((r + op + 1 : ℕ) : ℝ)) lp
    (fun x hx h1 => ?_) n img ⟨rfl, rfl⟩ h0 (fun r _ c _ => by
      rw [sub_self, abs_zero]
      exact mul_nonneg hp.count_nonneg (Nat.cast_nonneg _)) hn
  obtain ⟨y, y', g1, -, g2, -, g3⟩ := C125_parallel hp x x h1 h1 (by rw [hx.1]; exact hnr)
    (by rw [hx.1]; exact hbp) le_rfl ⟨rfl, rfl, fun _ _ _ _ => Or.inl rfl⟩
  rw [hx.1, hx.2] at g3
  refine ⟨y, ?_, ⟨g2.1.trans hx.1, g2.2.trans hx.2⟩, fun r hr c hc => (g3 r hr c hc).1⟩
  simp only [bind, Except.bind]
  have e : ({ PyDirection.absent with roe := none } : PyDirection) = PyDirection.absent := rfl
  rw [e, g1]
  simp only [hroe, Option.map_some, Option.map_none]

end main

/-! ### a case -/

/-- Three rows and two columns of 2000 electrons, and the same image with 500 electrons more in one pixel, a notch of 50 electrons, a full
well of 1050 electrons and `well_fill_power = 1/2`: the 500 electrons are passed on. -/
example (d : PyDirection) (hd : d = ⟨some ⟨[1], [1050], [1 / 2], [50], [.num 1050]⟩, some (.standard [1] true true true false),
      some (.list ([[.logNormalTrap 0.1 3 (1 / 2)], [.trap 0.1 2 0.1 false], [.instant 0.1 5 false]].map .group)), 0, 2⟩) :
    ∃ out out' roes, addCtiPy ⟨3, 2, fun _ _ => 2000⟩ d .all d .all none = .ok (out, roes) ∧
      addCtiPy ⟨3, 2, fun r c => if r = 1 ∧ c = 0 then 2500 else 2000⟩ d .all d .all none = .ok (out', roes) ∧
      out'.px 1 0 = out.px 1 0 + 500 ∧ out'.px 2 1 = out.px 2 1 := by
  have h := exNotch
  rw [← hd] at h
  obtain ⟨out, out', g1, g2, -, -, g3⟩ := C125_add_cti (bp := 112.5) (bs := 112.5) (lp := 120) (ls := 115) (left := 112.5)
    (kp := 0.0012) (ks := 0.0012) (M := 1050) h h (⟨3, 2, fun _ _ => 2000⟩ : Image ℝ)
    (⟨3, 2, fun r c => if r = 1 ∧ c = 0 then 2500 else 2000⟩ : Image ℝ) (fun r _ c _ => by norm_num)
    (fun r _ c _ => by simp only; split <;> norm_num) (by norm_num) (by norm_num)
    ⟨by norm_num, by norm_num, by rw [exFull_count, exNotch_slope]; norm_num, by norm_num, by norm_num, by norm_num⟩
    ⟨by norm_num, by norm_num, by rw [exFull_count, exNotch_slope]; norm_num, by norm_num, by norm_num, by norm_num⟩
    (by norm_num) ⟨rfl, rfl, fun r hr c hc => by
      have hr' : r < 3 := hr
      have hc' : c < 2 := hc
      by_cases e : r = 1 ∧ c = 0
      · right
        rw [e.1, e.2]
        unfold trapReach
        rw [exFull_count]
        norm_num
      · left
        simp only [if_neg e]⟩
  refine ⟨out, out', _, g1, g2, ?_, ?_⟩
  · rw [(g3 1 (by norm_num) 0 (by norm_num)).2.2]
    norm_num
  · rw [(g3 2 (by norm_num) 1 (by norm_num)).2.2]
    norm_num

/-- The same CCD, traps and image of 2000 electrons: ten iterations of `remove_cti` change no pixel by more than 0.3 electrons times
the number of transfers, 9 at most. -/
example (d : PyDirection) (hd : d = ⟨some ⟨[1], [1050], [1 / 2], [50], [.num 1050]⟩, some (.standard [1] true true true false),
      some (.list ([[.logNormalTrap 0.1 3 (1 / 2)], [.trap 0.1 2 0.1 false], [.instant 0.1 5 false]].map .group)), 0, 2⟩) :
    ∃ out, removeCtiPy ⟨3, 2, fun _ _ => 2000⟩ 10 d .all d .all none = .ok (out, d.roe, d.roe) ∧ |out.px 2 1 - 2000| ≤ 2.7 := by
  have h := exNotch
  rw [← hd] at h
  obtain ⟨out, g1, -, g3⟩ := C125_remove_cti (bp := 112.5) (bs := 112.5) (lp := 120) (ls := 115) (left := 112.5)
    (kp := 0.0012) (ks := 0.0012) h h (⟨3, 2, fun _ _ => 2000⟩ : Image ℝ) (fun r _ c _ => by norm_num) (by norm_num) (by norm_num)
    ⟨by norm_num, by norm_num, by rw [exFull_count, exNotch_slope]; norm_num, by norm_num, by norm_num, by norm_num⟩
    ⟨by norm_num, by norm_num, by rw [exFull_count, exNotch_slope]; norm_num, by norm_num, by norm_num, by norm_num⟩
    10 (Or.inr fun r hr c hc => by
      have hr' : (r : ℝ) ≤ 3 := by exact_mod_cast (show r < 3 from hr).le
      have hc' : (c : ℝ) ≤ 2 := by exact_mod_cast (show c < 2 from hc).le
      unfold trapReach
      rw [exFull_count]
      push_cast
      norm_num
      linarith)
  refine ⟨out, g1, (g3 2 (by norm_num) 1 (by norm_num)).trans ?_⟩
  unfold trapReach
  rw [exFull_count]
  norm_num

end Arctic
