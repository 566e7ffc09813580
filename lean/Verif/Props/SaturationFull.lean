import Verif.Lemmas.StepSaturation
import Verif.Props.ExpressFull
import Verif.Props.Saturation

/-!
# C107, C108 — the most a pixel can change, and charge above the full well, with traps of all classes

C84 and C89 are about traps that capture at once.
-/

set_option linter.unusedSectionVars false
set_option linter.unusedVariables false

namespace Arctic

theorem wellFill_full {full power n : ℝ} (hf : 0 < full) (hn : full ≤ n) : wellFill full power n = 1 := by
  unfold wellFill
  have : 1 ≤ n / full := (one_le_div hf).2 hn
  rw [min_eq_left (le_max_of_le_right this), Real.one_rpow]

/-- A group cannot tell clouds that fill the pixel from each other. -/
theorem full_transfer_bright {f : ℝ → ℝ} {dw L F : ℝ} {t : Ref.FullTraps} (hf : LipFill f L) (h : t.Reg dw)
    (hL : t.total * L ≤ 1) (hF : ∀ n, F ≤ n → f n = 1) {n n' : ℝ} (hn : F ≤ n) (hn' : F ≤ n') :
    Ref.FullTraps.transfer f dw t n = Ref.FullTraps.transfer f dw t n' := by
  rcases t with (t | t) | t
  · have hh : t.Reg dw := h
    have hl : t.total * L ≤ 1 := hL
    have e : t.transfer f dw n = t.transfer f dw n' := by
      rw [hh.transfer_plain hf hl, hh.transfer_plain hf hl]
      unfold Ref.Traps.plain
      have h0 := hh.outflow_nonneg
      rw [hF (n + t.outflow dw) (by linarith), hF (n' + t.outflow dw) (by linarith)]
    unfold Ref.FullTraps.transfer Ref.MixTraps.transfer
    simp only [e]
  · have hh : t.Reg dw := h
    have e1 : t.first f dw n = t.first f dw n' := by
      unfold Ref.Slow.first
      rw [hF n hn, hF n' hn']
    have e2 : t.second f dw n = t.second f dw n' := by
      unfold Ref.Slow.second
      rw [e1, hF _ (hn.trans (hh.cloud_ge f n)), hF _ (hn'.trans (hh.cloud_ge f n'))]
    have e : t.transfer n dw f = t.transfer n' dw f := by
      rw [Ref.Slow.transfer_eq, Ref.Slow.transfer_eq, e2]
    unfold Ref.FullTraps.transfer Ref.MixTraps.transfer
    simp only [e]
  · have e : f (t.cloud dw n) = f (t.cloud dw n') := by
      rw [hF _ (hn.trans (h.1.cloud_ge h.2 n)), hF _ (hn'.trans (h.1.cloud_ge h.2 n'))]
    rw [Ref.FullTraps.transfer_inr t h.1 h.2 hf n, Ref.FullTraps.transfer_inr t h.1 h.2 hf n']
    unfold Ref.Clocks.next
    rw [e]

theorem fullFilled_bounds {dw T : ℝ} {s : List Ref.FullTraps} (h : Ref.FullFew dw T s) :
    0 ≤ Ref.fullFilled s ∧ Ref.fullFilled s ≤ T := by
  rw [← h.total]
  unfold Ref.fullFilled Ref.fullTotal
  constructor
  · refine List.sum_nonneg fun x hx => ?_
    obtain ⟨t, ht, rfl⟩ := List.mem_map.1 hx
    exact (h.reg t ht).filled_nonneg
  · exact List.sum_le_sum fun t ht => (h.reg t ht).filled_le

theorem fullTotal_mem {dw T : ℝ} {s : List Ref.FullTraps} (h : Ref.FullFew dw T s) {t : Ref.FullTraps} (ht : t ∈ s) :
    t.total ≤ T := by
  rw [← h.total]
  exact List.single_le_sum (fun x hx => by
    obtain ⟨t, ht, rfl⟩ := List.mem_map.1 hx
    exact (h.reg t ht).total_nonneg) _ (List.mem_map_of_mem ht)

theorem full_limited {f : ℝ → ℝ} {dw L T F : ℝ} (hf : LipFill f L) (hT : 0 ≤ T) (hL : T * L ≤ 1)
    (hF0 : 0 ≤ F) (hF : ∀ n, F ≤ n → f n = 1) :
    Limited (Ref.fullStep f dw) (Ref.FullFew dw T) T F where
  inv s n hs _ := (full_step hf hs hL n).1
  gain s n hs _ := by
    obtain ⟨a, b, -⟩ := full_step hf hs hL n
    obtain ⟨a1, a2⟩ := fullFilled_bounds a
    obtain ⟨b1, b2⟩ := fullFilled_bounds hs
    rw [b, abs_le]
    constructor <;> linarith
  full s n n' hs hn hn' := by
    have e : ∀ t ∈ s, Ref.FullTraps.transfer f dw t n = Ref.FullTraps.transfer f dw t n' := fun t ht =>
      full_transfer_bright hf (hs.reg t ht)
        ((mul_le_mul_of_nonneg_right (fullTotal_mem hs ht) hf.nonneg_slope).trans hL) hF hn hn'
    unfold Ref.fullStep
    rw [List.map_congr_left (g := fun t => (Ref.FullTraps.transfer f dw t n').1) fun t ht => by rw [e t ht],
      List.map_congr_left (g := fun t => (Ref.FullTraps.transfer f dw t n').2) fun t ht => by rw [e t ht]]
  nonneg := hT
  level := hF0

section one
variable {full power dw : ℝ} {gs : List (List Trap)} {i : Bool} {c : CCD} {o : ℕ} {d : PyDirection}

theorem FullObjects.apart (h : FullObjects full power dw gs i c o d) (hfew : trapCount gs * (power / full) ≤ 1)
    (n e : ℕ) (hn : 0 < n) (he : e = 0 ∨ e + 1 ≠ n) {F : ℝ} (hF : full ≤ F) (D w x x' : ℕ → ℝ) (hw : ∀ r < n, 0 ≤ w r)
    (hx : ApartBy n F (trapCount gs) D (fun r => ((r + o + 1 : ℕ) : ℝ) + w r) x x') :
    ApartBy n F (trapCount gs) D w (expressFullReadout full power dw gs i n e o x)
      (expressFullReadout full power dw gs i n e o x') ∧
    ∀ r < n, |expressFullReadout full power dw gs i n e o x r - x r| ≤ trapCount gs * ((r + o + 1 : ℕ) : ℝ) :=
  (full_limited (wellFill_lip h.full h.power) h.count_nonneg hfew (h.full.le.trans hF)
    fun n hn => wellFill_full h.full (hF.trans hn)).express h.few.1 i n e o hn
    (by unfold effectiveExpress; split <;> omega) D w x x' hw hx

/-- What a column can change. -/
theorem FullObjects.reach (h : FullObjects full power dw gs i c o d) (hfew : trapCount gs * (power / full) ≤ 1)
    (n e : ℕ) (hn : 0 < n) (he : e = 0 ∨ e + 1 ≠ n) (x : ℕ → ℝ) (hx : ∀ r < n, 0 ≤ x r) :
    ∀ r < n, |expressFullReadout full power dw gs i n e o x r - x r| ≤ trapCount gs * ((r + o + 1 : ℕ) : ℝ) :=
  (h.apart hfew n e hn he le_rfl (fun _ => 0) (fun _ => 0) x x (fun _ _ => le_rfl)
    fun r hr => ⟨hx r hr, (add_zero _).symm, Or.inl rfl⟩).2

/-- **C107**, one direction: groups of traps of all classes, any `express`. -/
theorem C107_clock (h : FullObjects full power dw gs i c o d) (hfew : trapCount gs * (power / full) ≤ 1)
    (e : ℕ) (img : Image ℝ) (himg : img.NonNeg) (hnr : 0 < img.nr) (he : e = 0 ∨ e + 1 ≠ img.nr) (tw : Option (List ℕ))
    (hcov : Covering o (List.range img.nr) tw) :
    ∃ out, clockChargePy img (some c) (.standard [dw] true true true i) (.list (gs.map .group)) e o
        (List.range img.nr) (List.range img.nc) tw = .ok (out, .standard [dw] true true true i) ∧
      out.SameShape img ∧ out.NonNeg ∧ ∀ r < img.nr, ∀ c < img.nc,
        |out.px r c - img.px r c| ≤ trapCount gs * ((r + o + 1 : ℕ) : ℝ) := by
  obtain ⟨out, g1, g2, g3, g4, g5⟩ := h.run_express hfew e img himg hnr he tw hcov
  refine ⟨out, g1, ⟨g2, g3⟩, g4, fun r hr c hc => ?_⟩
  rw [g5 r hr c hc]
  exact h.reach hfew img.nr e hnr he (fun r => img.px r c) (fun r hr => himg r hr c hc) r hr

end one

/-- What the traps of both directions can change in a pixel: one trap-full per transfer. -/
noncomputable def trapReach (gp gs : List (List Trap)) (op os r c : ℕ) : ℝ :=
  trapCount gp * ((r + op + 1 : ℕ) : ℝ) + trapCount gs * ((c + os + 1 : ℕ) : ℝ)

section main
variable {fp fs pp ps dp ds : ℝ} {gp gs : List (List Trap)} {ip is : Bool} {cp cs : CCD} {op os : ℕ}
  {par ser : PyDirection}

theorem trapReach_nonneg (hp : FullObjects fp pp dp gp ip cp op par) (hs : FullObjects fs ps ds gs is cs os ser) (r c : ℕ) :
    0 ≤ trapReach gp gs op os r c :=
  add_nonneg (mul_nonneg hp.count_nonneg (Nat.cast_nonneg _)) (mul_nonneg hs.count_nonneg (Nat.cast_nonneg _))

/-- Two images in both directions. -/
theorem both_apart (hp : FullObjects fp pp dp gp ip cp op par) (hs : FullObjects fs ps ds gs is cs os ser)
    (hfp : trapCount gp * (pp / fp) ≤ 1) (hfs : trapCount gs * (ps / fs) ≤ 1) (nr nc : ℕ) (hnr : 0 < nr) (hnc : 0 < nc)
    (ep es : ℕ) (hep : ep = 0 ∨ ep + 1 ≠ nr) (hes : es = 0 ∨ es + 1 ≠ nc) {M : ℝ} (hMp : fp ≤ M) (hMs : fs ≤ M)
    (D x x' : ℕ → ℕ → ℝ) (hx : ∀ r < nr, ∀ c < nc, 0 ≤ x r c ∧ x' r c = x r c + D r c ∧
      (D r c = 0 ∨ (M + trapReach gp gs op os r c ≤ x r c ∧ M + trapReach gp gs op os r c ≤ x' r c))) :
    ∀ r < nr, ∀ c < nc,
      expressFullReadout fs ps ds gs is nc es os
          (fun c => expressFullReadout fp pp dp gp ip nr ep op (fun r => x' r c) r) c =
        expressFullReadout fs ps ds gs is nc es os
          (fun c => expressFullReadout fp pp dp gp ip nr ep op (fun r => x r c) r) c + D r c ∧
      |expressFullReadout fs ps ds gs is nc es os
          (fun c => expressFullReadout fp pp dp gp ip nr ep op (fun r => x r c) r) c - x r c| ≤
        trapReach gp gs op os r c := by
  have kp := hp.count_nonneg
  have ks := hs.count_nonneg
  -- after the parallel clocking
  have hP : ∀ r < nr, ∀ c < nc, 0 ≤ expressFullReadout fp pp dp gp ip nr ep op (fun r => x r c) r ∧
      expressFullReadout fp pp dp gp ip nr ep op (fun r => x' r c) r =
        expressFullReadout fp pp dp gp ip nr ep op (fun r => x r c) r + D r c ∧
      (D r c = 0 ∨ (M + trapCount gs * ((c + os + 1 : ℕ) : ℝ) ≤ expressFullReadout fp pp dp gp ip nr ep op (fun r => x r c) r ∧
        M + trapCount gs * ((c + os + 1 : ℕ) : ℝ) ≤ expressFullReadout fp pp dp gp ip nr ep op (fun r => x' r c) r)) ∧
      |expressFullReadout fp pp dp gp ip nr ep op (fun r => x r c) r - x r c| ≤ trapCount gp * ((r + op + 1 : ℕ) : ℝ) := by
    intro r hr c hc
    have hF : fp ≤ M + trapCount gs * ((c + os + 1 : ℕ) : ℝ) := by
      have := mul_nonneg ks (Nat.cast_nonneg (α := ℝ) (c + os + 1))
      linarith
    obtain ⟨a, b⟩ := hp.apart hfp nr ep hnr hep hF (fun r => D r c) (fun _ => 0) (fun r => x r c) (fun r => x' r c)
      (fun _ _ => le_rfl) (fun r hr => by
        obtain ⟨h1, h2, h3⟩ := hx r hr c hc
        refine ⟨h1, h2, h3.imp_right fun ⟨u, v⟩ => ?_⟩
        unfold trapReach at u v
        simp only [add_zero]
        constructor <;> linarith)
    obtain ⟨a1, a2, a3⟩ := a r hr
    simp only [mul_zero, add_zero] at a3
    exact ⟨a1, a2, a3, b r hr⟩
  intro r hr c hc
  obtain ⟨a, b⟩ := hs.apart hfs nc es hnc hes hMs (fun c => D r c) (fun _ => 0)
    (fun c => expressFullReadout fp pp dp gp ip nr ep op (fun r => x r c) r)
    (fun c => expressFullReadout fp pp dp gp ip nr ep op (fun r => x' r c) r) (fun _ _ => le_rfl) (fun c hc => by
      obtain ⟨h1, h2, h3, -⟩ := hP r hr c hc
      refine ⟨h1, h2, ?_⟩
      simp only [add_zero]
      exact h3)
  refine ⟨(a c hc).2.1, ?_⟩
  have b1 := b c hc
  have b2 := (hP r hr c hc).2.2.2
  unfold trapReach
  exact (abs_sub_le _ (expressFullReadout fp pp dp gp ip nr ep op (fun r => x r c) r) _).trans (by linarith)

/-- **C107**: `add_cti` changes no pixel by more than one trap-full per transfer, groups of traps of all classes, any
`express`. -/
theorem C107_add_cti (hp : FullObjects fp pp dp gp ip cp op par) (hs : FullObjects fs ps ds gs is cs os ser)
    (hfp : trapCount gp * (pp / fp) ≤ 1) (hfs : trapCount gs * (ps / fs) ≤ 1) (img : Image ℝ) (himg : img.NonNeg)
    (hnr : 0 < img.nr) (hnc : 0 < img.nc) (ep es : ℕ) (hep : ep = 0 ∨ ep + 1 ≠ img.nr) (hes : es = 0 ∨ es + 1 ≠ img.nc) :
    ∃ out, addCtiPy img { par with express := ep } .all { ser with express := es } .all none =
        .ok (out, .standard [dp] true true true ip, .standard [ds] true true true is) ∧
      out.SameShape img ∧ ∀ r < img.nr, ∀ c < img.nc, |out.px r c - img.px r c| ≤ trapReach gp gs op os r c := by
  obtain ⟨out, g1, g2, g3, g4⟩ := C105_add_cti hp hs hfp hfs img himg hnr hnc ep es hep hes
  refine ⟨out, g1, ⟨g2, g3⟩, fun r hr c hc => ?_⟩
  rw [g4 r hr c hc]
  exact (both_apart hp hs hfp hfs img.nr img.nc hnr hnc ep es hep hes (le_max_left fp fs) (le_max_right fp fs)
    (fun _ _ => 0) img.px img.px (fun r hr c hc => ⟨himg r hr c hc, (add_zero _).symm, Or.inl rfl⟩) r hr c hc).2

/-- **C108**: `add_cti` of two images that differ only in pixels that hold the full well and what the traps can take in both
gives images that differ by the same, groups of traps of all classes, any `express`. -/
theorem C108_add_cti (hp : FullObjects fp pp dp gp ip cp op par) (hs : FullObjects fs ps ds gs is cs os ser)
    (hfp : trapCount gp * (pp / fp) ≤ 1) (hfs : trapCount gs * (ps / fs) ≤ 1) (img img' : Image ℝ) (himg : img.NonNeg)
    (hnr : 0 < img.nr) (hnc : 0 < img.nc) (ep es : ℕ) (hep : ep = 0 ∨ ep + 1 ≠ img.nr) (hes : es = 0 ∨ es + 1 ≠ img.nc)
    (hd : DifferAbove (fun r c => max fp fs + trapReach gp gs op os r c) img img') :
    ∃ out out' roes, addCtiPy img { par with express := ep } .all { ser with express := es } .all none = .ok (out, roes) ∧
      addCtiPy img' { par with express := ep } .all { ser with express := es } .all none = .ok (out', roes) ∧
      out.SameShape img ∧ out'.SameShape img ∧
      ∀ r < img.nr, ∀ c < img.nc, out'.px r c = out.px r c + (img'.px r c - img.px r c) := by
  have hM : 0 ≤ max fp fs := le_max_of_le_left hp.full.le
  have himg' : img'.NonNeg := by
    intro r hr c hc
    rw [hd.nr] at hr
    rw [hd.nc] at hc
    rcases hd.bright r hr c hc with e | ⟨-, e⟩
    · rw [e]; exact himg r hr c hc
    · have := trapReach_nonneg hp hs r c
      exact le_trans (by linarith) e
  obtain ⟨out, g1, g2, g3, g4⟩ := C105_add_cti hp hs hfp hfs img himg hnr hnc ep es hep hes
  obtain ⟨out', q1, q2, q3, q4⟩ := C105_add_cti hp hs hfp hfs img' himg' (by rw [hd.nr]; exact hnr) (by rw [hd.nc]; exact hnc)
    ep es (by rw [hd.nr]; exact hep) (by rw [hd.nc]; exact hes)
  rw [hd.nr, hd.nc] at q4
  refine ⟨out, out', _, g1, q1, ⟨g2, g3⟩, ⟨q2.trans hd.nr, q3.trans hd.nc⟩, fun r hr c hc => ?_⟩
  rw [g4 r hr c hc, q4 r hr c hc]
  exact (both_apart hp hs hfp hfs img.nr img.nc hnr hnc ep es hep hes (le_max_left fp fs) (le_max_right fp fs)
    (fun r c => img'.px r c - img.px r c) img.px img'.px (fun r hr c hc => ⟨himg r hr c hc, by ring,
      (hd.bright r hr c hc).imp_left fun e => by rw [e, sub_self]⟩) r hr c hc).1

/-! ### corrections -/

/-- Iterations of a map that changes no pixel by more than `B`. -/
theorem removeIter_reach {S : Type} (add : Image ℝ → S → Except Err (Image ℝ × S)) (s : S) (img : Image ℝ) (B : ℕ → ℕ → ℝ)
    (hadd : ∀ x : Image ℝ, x.SameShape img → x.NonNeg → ∃ y, add x s = .ok (y, s) ∧ y.SameShape img ∧
      ∀ r < img.nr, ∀ c < img.nc, |y.px r c - x.px r c| ≤ B r c) :
    ∀ (n : ℕ) (cur : Image ℝ), cur.SameShape img → cur.NonNeg → (∀ r < img.nr, ∀ c < img.nc, |cur.px r c - img.px r c| ≤ B r c) →
      (n ≤ 1 ∨ ∀ r < img.nr, ∀ c < img.nc, B r c ≤ img.px r c) →
      ∃ out, removeIter add img n (cur, s) = .ok (out, s) ∧ out.SameShape img ∧
        ∀ r < img.nr, ∀ c < img.nc, |out.px r c - img.px r c| ≤ B r c := by
  intro n
  induction n with
  | zero => intro cur hsh _ hc _; exact ⟨cur, rfl, hsh, hc⟩
  | succ n ih =>
    intro cur hsh h0 hc hn
    obtain ⟨y, g1, g2, g3⟩ := hadd cur hsh h0
    have near : ∀ r < img.nr, ∀ c < img.nc, |cur.px r c + (img.px r c - y.px r c) - img.px r c| ≤ B r c := by
      intro r hr c hc'
      have := g3 r hr c hc'
      rw [abs_sub_comm] at this
      refine le_trans (le_of_eq ?_) this
      congr 1
      ring
    simp only [removeIter, bind, Except.bind, g1]
    rcases Nat.eq_zero_or_pos n with hz | hz
    · subst hz
      exact ⟨_, rfl, hsh, near⟩
    · rcases hn with hn | hn
      · omega
      · refine ih _ hsh (fun r hr c hc' => ?_) near (Or.inr hn)
        have hr' : r < img.nr := by rw [← hsh.1]; exact hr
        have hc'' : c < img.nc := by rw [← hsh.2]; exact hc'
        have e1 := (abs_le.1 (near r hr' c hc'')).1
        have e2 := hn r hr' c hc''
        simp only
        linarith

/-- Iterations of a map that cannot tell pixels of `M` and more from each other. -/
theorem removeIter_apart {S : Type} (add : Image ℝ → S → Except Err (Image ℝ × S)) (s : S) (img img' : Image ℝ) (B : ℕ → ℕ → ℝ)
    (M : ℝ) (hsh' : img'.SameShape img)
    (hadd : ∀ x x' : Image ℝ, x.SameShape img → x'.SameShape img → x.NonNeg → x'.NonNeg →
      (∀ r < img.nr, ∀ c < img.nc, x'.px r c = x.px r c + (img'.px r c - img.px r c) ∧
        (img'.px r c = img.px r c ∨ (M + B r c ≤ x.px r c ∧ M + B r c ≤ x'.px r c))) →
      ∃ y y', add x s = .ok (y, s) ∧ add x' s = .ok (y', s) ∧ y.SameShape img ∧ y'.SameShape img ∧
        ∀ r < img.nr, ∀ c < img.nc, |y.px r c - x.px r c| ≤ B r c ∧ |y'.px r c - x'.px r c| ≤ B r c ∧
          y'.px r c = y.px r c + (img'.px r c - img.px r c))
    (hlow : ∀ r < img.nr, ∀ c < img.nc, B r c ≤ img.px r c ∧ B r c ≤ img'.px r c)
    (hd : ∀ r < img.nr, ∀ c < img.nc, img'.px r c = img.px r c ∨
      (M + 2 * B r c ≤ img.px r c ∧ M + 2 * B r c ≤ img'.px r c)) :
    ∀ (n : ℕ) (cur cur' : Image ℝ), cur.SameShape img → cur'.SameShape img →
      (∀ r < img.nr, ∀ c < img.nc, |cur.px r c - img.px r c| ≤ B r c ∧ |cur'.px r c - img'.px r c| ≤ B r c ∧
        cur'.px r c = cur.px r c + (img'.px r c - img.px r c)) →
      ∃ out out', removeIter add img n (cur, s) = .ok (out, s) ∧ removeIter add img' n (cur', s) = .ok (out', s) ∧
        out.SameShape img ∧ out'.SameShape img ∧
        ∀ r < img.nr, ∀ c < img.nc, out'.px r c = out.px r c + (img'.px r c - img.px r c) := by
  intro n
  induction n with
  | zero => intro cur cur' h1 h2 h3; exact ⟨cur, cur', rfl, rfl, h1, h2, fun r hr c hc => (h3 r hr c hc).2.2⟩
  | succ n ih =>
    intro cur cur' h1 h2 h3
    have low : ∀ r < img.nr, ∀ c < img.nc, 0 ≤ cur.px r c ∧ 0 ≤ cur'.px r c := by
      intro r hr c hc
      obtain ⟨a, b, -⟩ := h3 r hr c hc
      obtain ⟨u, v⟩ := hlow r hr c hc
      have := (abs_le.1 a).1
      have := (abs_le.1 b).1
      constructor <;> linarith
    obtain ⟨y, y', g1, g2, g3, g4, g5⟩ := hadd cur cur' h1 h2
      (fun r hr c hc => (low r (by rw [← h1.1]; exact hr) c (by rw [← h1.2]; exact hc)).1)
      (fun r hr c hc => (low r (by rw [← h2.1]; exact hr) c (by rw [← h2.2]; exact hc)).2) (fun r hr c hc => by
        obtain ⟨a, b, e⟩ := h3 r hr c hc
        refine ⟨e, (hd r hr c hc).imp_right fun ⟨u, v⟩ => ?_⟩
        have := (abs_le.1 a).1
        have := (abs_le.1 b).1
        constructor <;> linarith)
    simp only [removeIter, bind, Except.bind, g1, g2]
    refine ih _ _ h1 h2 fun r hr c hc => ?_
    obtain ⟨a, b, e⟩ := g5 r hr c hc
    obtain ⟨-, -, e'⟩ := h3 r hr c hc
    simp only
    refine ⟨?_, ?_, by rw [e, e']; ring⟩
    · rw [abs_sub_comm] at a
      refine le_trans (le_of_eq ?_) a
      congr 1; ring
    · rw [abs_sub_comm] at b
      refine le_trans (le_of_eq ?_) b
      congr 1; ring

/-- **C107**: the same for `remove_cti` with one iteration, and with any number if all pixels hold at least what they can
change by. -/
theorem C107_remove_cti (hp : FullObjects fp pp dp gp ip cp op par) (hs : FullObjects fs ps ds gs is cs os ser)
    (hfp : trapCount gp * (pp / fp) ≤ 1) (hfs : trapCount gs * (ps / fs) ≤ 1) (img : Image ℝ) (himg : img.NonNeg)
    (hnr : 0 < img.nr) (hnc : 0 < img.nc) (ep es : ℕ) (hep : ep = 0 ∨ ep + 1 ≠ img.nr) (hes : es = 0 ∨ es + 1 ≠ img.nc)
    (n : ℕ) (hn : n ≤ 1 ∨ ∀ r < img.nr, ∀ c < img.nc, trapReach gp gs op os r c ≤ img.px r c) :
    ∃ out, removeCtiPy img n { par with express := ep } .all { ser with express := es } .all none =
        .ok (out, par.roe, ser.roe) ∧ out.SameShape img ∧
      ∀ r < img.nr, ∀ c < img.nc, |out.px r c - img.px r c| ≤ trapReach gp gs op os r c := by
  have hroe : par.roe = some (.standard [dp] true true true ip) ∧ ser.roe = some (.standard [ds] true true true is) := by
    rw [hp.eq, hs.eq]; exact ⟨rfl, rfl⟩
  refine removeIter_reach (fun x (roes : Option (Roe ℝ) × Option (Roe ℝ)) => do
      let (y, rp, rs) ← addCtiPy x { { par with express := ep } with roe := roes.1 } .all
        { { ser with express := es } with roe := roes.2 } .all none
      .ok (y, roes.1.map fun _ => rp, roes.2.map fun _ => rs)) (par.roe, ser.roe) img (trapReach gp gs op os)
    (fun x hx h0 => ?_) n img ⟨rfl, rfl⟩ himg (fun r _ c _ => by
      rw [sub_self, abs_zero]; exact trapReach_nonneg hp hs r c) hn
  obtain ⟨y, g1, g2, g3⟩ := C107_add_cti hp hs hfp hfs x h0 (by rw [hx.1]; exact hnr) (by rw [hx.2]; exact hnc) ep es
    (by rw [hx.1]; exact hep) (by rw [hx.2]; exact hes)
  rw [hx.1, hx.2] at g3
  refine ⟨y, ?_, ⟨g2.1.trans hx.1, g2.2.trans hx.2⟩, g3⟩
  simp only [bind, Except.bind]
  rw [g1]
  simp only [hroe.1, hroe.2, Option.map_some]

/-- **C108**: the same for `remove_cti` with any number of iterations, if the pixels hold the full well and twice what the traps
can take. -/
theorem C108_remove_cti (hp : FullObjects fp pp dp gp ip cp op par) (hs : FullObjects fs ps ds gs is cs os ser)
    (hfp : trapCount gp * (pp / fp) ≤ 1) (hfs : trapCount gs * (ps / fs) ≤ 1) (img img' : Image ℝ)
    (hnr : 0 < img.nr) (hnc : 0 < img.nc) (ep es : ℕ) (hep : ep = 0 ∨ ep + 1 ≠ img.nr) (hes : es = 0 ∨ es + 1 ≠ img.nc)
    (hlow : ∀ r < img.nr, ∀ c < img.nc, trapReach gp gs op os r c ≤ img.px r c)
    (hd : DifferAbove (fun r c => max fp fs + 2 * trapReach gp gs op os r c) img img') (n : ℕ) :
    ∃ out out', removeCtiPy img n { par with express := ep } .all { ser with express := es } .all none =
        .ok (out, par.roe, ser.roe) ∧
      removeCtiPy img' n { par with express := ep } .all { ser with express := es } .all none =
        .ok (out', par.roe, ser.roe) ∧ out.SameShape img ∧ out'.SameShape img ∧
      ∀ r < img.nr, ∀ c < img.nc, out'.px r c = out.px r c + (img'.px r c - img.px r c) := by
  have hroe : par.roe = some (.standard [dp] true true true ip) ∧ ser.roe = some (.standard [ds] true true true is) := by
    rw [hp.eq, hs.eq]; exact ⟨rfl, rfl⟩
  have hM : 0 ≤ max fp fs := le_max_of_le_left hp.full.le
  refine removeIter_apart (fun x (roes : Option (Roe ℝ) × Option (Roe ℝ)) => do
      let (y, rp, rs) ← addCtiPy x { { par with express := ep } with roe := roes.1 } .all
        { { ser with express := es } with roe := roes.2 } .all none
      .ok (y, roes.1.map fun _ => rp, roes.2.map fun _ => rs)) (par.roe, ser.roe) img img' (trapReach gp gs op os)
    (max fp fs) ⟨hd.nr, hd.nc⟩ (fun x x' hx hx' h0 h0' hxx => ?_) (fun r hr c hc => ⟨hlow r hr c hc, ?_⟩) hd.bright n img img' ⟨rfl, rfl⟩
    ⟨hd.nr, hd.nc⟩ (fun r _ c _ => ?_)
  · obtain ⟨y, y', roes, g1, g2, g3, g4, g5⟩ := C108_add_cti hp hs hfp hfs x x' h0 (by rw [hx.1]; exact hnr)
      (by rw [hx.2]; exact hnc) ep es (by rw [hx.1]; exact hep) (by rw [hx.2]; exact hes)
      ⟨hx'.1.trans hx.1.symm, hx'.2.trans hx.2.symm, fun r hr c hc => by
        obtain ⟨a, b⟩ := hxx r (by rw [← hx.1]; exact hr) c (by rw [← hx.2]; exact hc)
        refine b.imp_left fun e => ?_
        rw [a, e, sub_self, add_zero]⟩
    obtain ⟨z, k1, -, k3⟩ := C107_add_cti hp hs hfp hfs x h0 (by rw [hx.1]; exact hnr)
      (by rw [hx.2]; exact hnc) ep es (by rw [hx.1]; exact hep) (by rw [hx.2]; exact hes)
    obtain ⟨z', l1, -, l3⟩ := C107_add_cti hp hs hfp hfs x' h0' (by rw [hx'.1]; exact hnr)
      (by rw [hx'.2]; exact hnc) ep es (by rw [hx'.1]; exact hep) (by rw [hx'.2]; exact hes)
    rw [g1] at k1
    rw [g2] at l1
    injection k1 with k1
    injection l1 with l1
    simp only [Prod.mk.injEq] at k1 l1
    obtain ⟨rfl, rfl⟩ := k1
    obtain ⟨rfl, -⟩ := l1
    rw [hx.1, hx.2] at g5 k3
    rw [hx'.1, hx'.2] at l3
    refine ⟨y, y', ?_, ?_, ⟨g3.1.trans hx.1, g3.2.trans hx.2⟩, ⟨g4.1.trans hx.1, g4.2.trans hx.2⟩, fun r hr c hc =>
      ⟨k3 r hr c hc, l3 r hr c hc, ?_⟩⟩
    · simp only [bind, Except.bind]
      rw [g1]
      simp only [hroe.1, hroe.2, Option.map_some]
    · simp only [bind, Except.bind]
      rw [g2]
      simp only [hroe.1, hroe.2, Option.map_some]
    · rw [g5 r hr c hc, (hxx r hr c hc).1]
      ring
  · rcases hd.bright r hr c hc with e | ⟨-, e⟩
    · rw [e]; exact hlow r hr c hc
    · have := trapReach_nonneg hp hs r c
      exact le_trans (by linarith) e
  · have := trapReach_nonneg hp hs r c
    simp only [sub_self, abs_zero]
    exact ⟨this, this, by ring⟩

end main

/-! ### cases -/

/-- Three rows and two columns of 100 electrons, traps of three classes, 0.3 per pixel: no correction, converging or not, changes
the last pixel by more than 2.7 electrons. -/
example (d : PyDirection) (hd : d = ⟨some ⟨[1], [1000], [1], [0], [.num 1000]⟩, some (.standard [1] true true true false),
      some (.list ([[.logNormalTrap 0.1 3 (1 / 2)], [.trap 0.1 2 0.1 false], [.instant 0.1 5 false]].map .group)), 0, 2⟩)
    (n : ℕ) :
    ∃ out, removeCtiPy ⟨3, 2, fun _ _ => 100⟩ n { d with express := 1 } .all { d with express := 5 } .all none =
      .ok (out, d.roe, d.roe) ∧ |out.px 2 1 - 100| ≤ 2.7 := by
  have h := exFull
  rw [← hd] at h
  have hc := exFull_count
  obtain ⟨out, g1, -, g2⟩ := C107_remove_cti h h (by rw [hc]; norm_num) (by rw [hc]; norm_num)
    (⟨3, 2, fun _ _ => 100⟩ : Image ℝ) (fun _ _ _ _ => by norm_num) (by norm_num) (by norm_num)
    1 5 (Or.inr (by norm_num)) (Or.inr (by norm_num)) n (Or.inr fun r hr c hc' => by
      unfold trapReach
      rw [hc]
      have e1 : ((r + 2 + 1 : ℕ) : ℝ) ≤ 5 := by
        have : r + 2 + 1 ≤ 5 := by simp only at hr; omega
        exact_mod_cast this
      have e2 : ((c + 2 + 1 : ℕ) : ℝ) ≤ 4 := by
        have : c + 2 + 1 ≤ 4 := by simp only at hc'; omega
        exact_mod_cast this
      simp only
      linarith)
  refine ⟨out, g1, (g2 2 (by norm_num) 1 (by norm_num)).trans ?_⟩
  unfold trapReach
  rw [hc]
  norm_num

/-- Three rows and two columns, one pixel with 5000 or with 60000 electrons, traps of three classes: after three iterations the
corrected images differ in this pixel by 55000 electrons and agree in all others. -/
example (d : PyDirection) (hd : d = ⟨some ⟨[1], [1000], [1], [0], [.num 1000]⟩, some (.standard [1] true true true false),
      some (.list ([[.logNormalTrap 0.1 3 (1 / 2)], [.trap 0.1 2 0.1 false], [.instant 0.1 5 false]].map .group)), 0, 2⟩) :
    ∃ out out', removeCtiPy ⟨3, 2, fun r c => if r = 1 ∧ c = 0 then 5000 else 100⟩ 3 { d with express := 1 } .all
        d .all none = .ok (out, d.roe, d.roe) ∧
      removeCtiPy ⟨3, 2, fun r c => if r = 1 ∧ c = 0 then 60000 else 100⟩ 3 { d with express := 1 } .all
        d .all none = .ok (out', d.roe, d.roe) ∧
      out'.px 1 0 = out.px 1 0 + 55000 ∧ out'.px 2 0 = out.px 2 0 ∧ out'.px 1 1 = out.px 1 1 := by
  have h := exFull
  rw [← hd] at h
  have hc := exFull_count
  have small : ∀ r < 3, ∀ c < 2, trapReach [[.logNormalTrap 0.1 3 (1 / 2)], [.trap 0.1 2 0.1 false], [.instant 0.1 5 false]]
      [[.logNormalTrap 0.1 3 (1 / 2)], [.trap 0.1 2 0.1 false], [.instant 0.1 5 false]] 2 2 r c ≤ 10 := by
    intro r hr c hc'
    unfold trapReach
    rw [hc]
    have e1 : ((r + 2 + 1 : ℕ) : ℝ) ≤ 5 := by
      have : r + 2 + 1 ≤ 5 := by omega
      exact_mod_cast this
    have e2 : ((c + 2 + 1 : ℕ) : ℝ) ≤ 4 := by
      have : c + 2 + 1 ≤ 4 := by omega
      exact_mod_cast this
    linarith
  have e0 : d = { d with express := 0 } := by rw [hd]
  obtain ⟨out, out', g1, g2, -, -, g3⟩ := C108_remove_cti h h (by rw [hc]; norm_num) (by rw [hc]; norm_num)
    (⟨3, 2, fun r c => if r = 1 ∧ c = 0 then 5000 else 100⟩ : Image ℝ)
    (⟨3, 2, fun r c => if r = 1 ∧ c = 0 then 60000 else 100⟩ : Image ℝ) (by norm_num) (by norm_num)
    1 0 (Or.inr (by norm_num)) (Or.inl rfl)
    (fun r hr c hc' => (small r hr c hc').trans (by simp only; split <;> norm_num))
    ⟨rfl, rfl, fun r hr c hc' => by
      have := small r hr c hc'
      simp only
      by_cases hq : r = 1 ∧ c = 0
      · rw [if_pos hq, if_pos hq, max_self]
        right
        constructor <;> linarith
      · rw [if_neg hq, if_neg hq]
        exact Or.inl rfl⟩ 3
  rw [← e0] at g1 g2
  refine ⟨out, out', g1, g2, ?_, ?_, ?_⟩
  · rw [g3 1 (by norm_num) 0 (by norm_num)]; norm_num
  · rw [g3 2 (by norm_num) 0 (by norm_num)]; norm_num
  · rw [g3 1 (by norm_num) 1 (by norm_num)]; norm_num

end Arctic
