import Verif.Props.NoEffect
import Verif.Lemmas.Same
import Verif.Props.Total

/-!
# C100 — `empty_traps_between_columns = False`
-/

set_option linter.unusedSectionVars false
set_option linter.unusedVariables false

namespace Arctic

variable {K : Type} [Field K] [LinearOrder K] [IsStrictOrderedRing K]

/-! ## Specification -/

/-- The images have the same size and the same pixels in these columns. -/
def Image.SameIn (i j : Image K) (columns : List ℕ) : Prop :=
  i.nr = j.nr ∧ i.nc = j.nc ∧ ∀ c ∈ columns, ∀ r < i.nr, i.px r c = j.px r c

/-- The readout object with `empty_traps_between_columns = True`. -/
def Roe.emptying : Roe K → Roe K
  | .standard d ef _ f i => .standard d ef true f i
  | .injection d n _ f i => .injection d n true f i
  | .pumping d n ef i => .pumping d n ef i

/-! ## Lemmas -/

theorem clockLoops_append {S : Type} (sys : TrapSys K S) (cfg : ClockCfg K) (A B : List ℕ) (st : Image K × S) :
    clockLoops sys cfg (A ++ B) st = clockLoops sys cfg A st >>= clockLoops sys cfg B := by
  unfold clockLoops
  rw [List.foldlM_append]

/-- The columns of a window only see each other and the state of the traps before them. -/
theorem clockLoops_sameIn {S : Type} (sys : TrapSys K S) (cfg : ClockCfg K) (W : List ℕ) (A : List ℕ) (hA : ∀ c ∈ A, c ∈ W) :
    ∀ (i j : Image K) (s : S), (i.nr = j.nr ∧ i.nc = j.nc ∧ ∀ c ∈ W, ∀ r, i.px r c = j.px r c) →
      ExRel (fun x y => (x.1.nr = y.1.nr ∧ x.1.nc = y.1.nc ∧ ∀ c ∈ W, ∀ r, x.1.px r c = y.1.px r c) ∧ x.2 = y.2)
        (clockLoops sys cfg A (i, s)) (clockLoops sys cfg A (j, s)) := by
  induction A with
  | nil => intro i j s h; exact ⟨h, rfl⟩
  | cons c A ih =>
    intro i j s h
    rw [clockLoops_cons, clockLoops_cons]
    have hag : AgreeOn c i j := ⟨h.1, by rw [h.2.1], fun r => h.2.2 c (hA c List.mem_cons_self) r⟩
    have key := columnBody_rel (sysRel_eq sys) (imgRel_agreeOn c) cfg Eq (fun s t h => by rw [h]) (i, s) (j, s) ⟨hag, rfl⟩
    cases hx : columnBody sys cfg (i, s) c with
    | error e =>
      rw [hx] at key
      cases hy : columnBody sys cfg (j, s) c with
      | error e' => rw [hy] at key; exact key
      | ok y => rw [hy] at key; exact key.elim
    | ok x =>
      obtain ⟨y, hy, k1, k2⟩ := key.ok_left hx
      rw [hy]
      have fx := columnBody_frame sys cfg hx
      have fy := columnBody_frame sys cfg hy
      obtain ⟨x1, x2⟩ := x
      obtain ⟨y1, y2⟩ := y
      dsimp only at k1 k2 fx fy
      subst k2
      refine ih (fun c' hc' => hA c' (List.mem_cons_of_mem _ hc')) x1 y1 x2 ⟨k1.1, ?_, fun c' hc' r => ?_⟩
      · rw [fx.2.1, fy.2.1]; exact h.2.1
      · by_cases e : c' = c
        · subst e; exact k1.2.2 r
        · rw [fx.2.2 r c' e, fy.2.2 r c' e]
          exact h.2.2 c' hc' r

/-! ## Properties -/

/-- **C100**: whether or not traps are emptied between columns, what columns become depends on the columns before them
only. If a call for the columns `A` followed by the columns `B` returns, then for every image with the same columns `A` the call for
the columns `A` alone returns, and makes the same of them. -/
theorem C100_before (img img' : Image K) (ccd : CcdView K) (roe : Roe K) (groups : List (Group K)) (e o : ℕ)
    (rows A B : List ℕ) (tw : Option (List ℕ)) (hsame : img.SameIn img' A) (hAB : ∀ c ∈ A, c ∉ B)
    (out : Image K) (roe' : Roe K) (h : clockCharge img ccd roe groups e o rows (A ++ B) tw = .ok (out, roe')) :
    ∃ out', clockCharge img' ccd roe groups e o rows A tw = .ok (out', roe') ∧ out'.SameIn out A := by
  obtain ⟨cfg, st, h1, h2, rfl⟩ := clockCharge_ok h
  rw [clockLoops_append] at h2
  obtain ⟨mid, h2, h3⟩ := bind_eq_ok h2
  have hpad : (img.pad (nPadding roe.accessed)).nr = (img'.pad (nPadding roe.accessed)).nr ∧
      (img.pad (nPadding roe.accessed)).nc = (img'.pad (nPadding roe.accessed)).nc ∧
      ∀ c ∈ A, ∀ r, (img.pad (nPadding roe.accessed)).px r c = (img'.pad (nPadding roe.accessed)).px r c := by
    refine ⟨by simp [Image.pad, hsame.1], by simp [Image.pad, hsame.2.1], fun c hc r => ?_⟩
    simp only [Image.pad, ← hsame.1]
    split
    · rename_i hr; exact hsame.2.2 c hc r hr
    · rfl
  obtain ⟨st', g1, g2, -⟩ := (clockLoops_sameIn (atmSys ccd.fill) cfg A A (fun _ h => h) _ _ _ hpad).ok_left h2
  have fr := clockLoops_frame _ cfg h3
  refine ⟨_, clockCharge_of h1 g1, ?_, ?_, fun c hc r hr => ?_⟩
  · simp only [Image.unpad]
    rw [fr.1, g2.1]
  · simp only [Image.unpad]
    rw [fr.2.1, g2.2.1]
  · simp only [Image.unpad]
    rw [fr.2.2 r c (hAB c hc), g2.2.2 c hc r]

theorem clockCfg_emptying (roe : Roe K) (ccd : CcdView K) (e o : ℕ) (rows : List ℕ) (tw : Option (List ℕ)) :
    clockCfg roe.emptying ccd e o rows tw =
      (clockCfg roe ccd e o rows tw).map fun x => ({ x.1 with emptyBetween := true }, x.2.emptying) := by
  cases roe with
  | standard d ef b f i =>
    have key := clockCfg_set (r := Roe.standard (K := K) d ef b f i) (f := f) (b := true) (i := i) (e := e) (o := o) (rows := rows)
      (columns := [0]) ⟨.inl rfl, .inr le_rfl, .inl rfl⟩ ccd tw
    rw [show (Roe.standard (K := K) d ef b f i).emptying = (Roe.standard d ef b f i).set f true i from rfl, key]
    cases h : clockCfg (Roe.standard (K := K) d ef b f i) ccd e o rows tw with
    | error err => rfl
    | ok x =>
      obtain ⟨cfg, r'⟩ := x
      have hr : r' = Roe.standard (K := K) d ef b f i := by
        have := (clockCfg_fields h).1
        simp only [Roe.express] at this
        obtain ⟨y, -, hy⟩ := bind_eq_ok this
        injection hy with hy
        injection hy with _ hy
        injection hy with _ hy
        exact hy.symm
      subst hr
      rfl
  | injection d n b f i =>
    have key := clockCfg_set (r := Roe.injection (K := K) d n b f i) (f := f) (b := true) (i := i) (e := e) (o := o) (rows := rows)
      (columns := [0]) ⟨.inl rfl, .inr le_rfl, rfl⟩ ccd tw
    rw [show (Roe.injection (K := K) d n b f i).emptying = (Roe.injection d n b f i).set f true i from rfl, key]
    cases h : clockCfg (Roe.injection (K := K) d n b f i) ccd e o rows tw with
    | error err => rfl
    | ok x =>
      obtain ⟨cfg, r'⟩ := x
      have hr : ∃ n', r' = Roe.injection (K := K) d n' b f i := by
        have := (clockCfg_fields h).1
        simp only [Roe.express] at this
        obtain ⟨⟨⟨m, mon⟩, n'⟩, -, hy⟩ := bind_eq_ok this
        injection hy with hy
        injection hy with _ hy
        injection hy with _ hy
        exact ⟨_, hy.symm⟩
      obtain ⟨n', rfl⟩ := hr
      rfl
  | pumping d n ef i =>
    change _ = (clockCfg (Roe.pumping d n ef i) ccd e o rows tw).map _
    change clockCfg (Roe.pumping d n ef i) ccd e o rows tw = _
    cases h : clockCfg (Roe.pumping (K := K) d n ef i) ccd e o rows tw with
    | error err => rfl
    | ok x =>
      obtain ⟨cfg, r'⟩ := x
      have hb : cfg.emptyBetween = true := (clockCfg_fields h).2.2.2.2.2.2.2
      have hr : r' = Roe.pumping (K := K) d n ef i := by
        have := (clockCfg_fields h).1
        simp only [Roe.express] at this
        obtain ⟨y, -, hy⟩ := bind_eq_ok this
        injection hy with hy
        injection hy with _ hy
        injection hy with _ hy
        exact hy.symm
      subst hr
      obtain ⟨a1, a2, a3, a4, a5, a6, a7, a8, a9⟩ := cfg
      dsimp only at hb
      subst hb
      rfl

/-- **C100**: the first column becomes what it becomes when traps are emptied between columns. -/
theorem C100_first (img : Image K) (ccd : CcdView K) (roe : Roe K) (groups : List (Group K)) (e o : ℕ)
    (rows : List ℕ) (c : ℕ) (B : List ℕ) (tw : Option (List ℕ)) (hc : c ∉ B)
    (out : Image K) (roe' : Roe K) (h : clockCharge img ccd roe groups e o rows (c :: B) tw = .ok (out, roe')) :
    ∃ out', clockCharge img ccd roe.emptying groups e o rows [c] tw = .ok (out', roe'.emptying) ∧ out'.SameIn out [c] := by
  obtain ⟨o1, h1, h2⟩ := C100_before img img ccd roe groups e o rows [c] B tw ⟨rfl, rfl, fun _ _ _ _ => rfl⟩
    (fun c' hc' => by rw [List.mem_singleton.1 hc']; exact hc) out roe' h
  refine ⟨o1, ?_, h2⟩
  obtain ⟨cfg, st, g1, g2, rfl⟩ := clockCharge_ok h1
  have g3 : clockCfg roe.emptying ccd e o rows tw = .ok ({ cfg with emptyBetween := true }, roe'.emptying) := by
    rw [clockCfg_emptying, g1]; rfl
  have ha : roe.emptying.accessed = roe.accessed := by cases roe <;> rfl
  have hp : roe.emptying.isPumping = roe.isPumping := by cases roe <;> rfl
  have hm : maxNTransfers roe.emptying { cfg with emptyBetween := true } = maxNTransfers roe cfg := by
    unfold maxNTransfers; rw [hp]
  have g4 := clockLoops_between (atmSys ccd.fill) cfg true [c] (.inr le_rfl) (img.pad (nPadding roe.accessed),
        ATM.new groups ccd.fractions (maxNTransfers roe cfg))
  rw [g2] at g4
  cases g5 : clockLoops (atmSys ccd.fill) { cfg with emptyBetween := true } [c] (img.pad (nPadding roe.accessed),
        ATM.new groups ccd.fractions (maxNTransfers roe cfg)) with
  | error err => rw [g5] at g4; cases g4
  | ok x =>
    rw [g5] at g4
    injection g4 with g4
    rw [← ha, ← hm] at g5
    have := clockCharge_of g3 g5
    rw [this, ha]
    change Except.ok (x.1.unpad _, _) = _
    rw [show x.1 = st.1 from g4]

/-! ### where it fails -/

/-- Ten traps per pixel, which keep half of their electrons, not emptied between columns. -/
def exCarry : Direction ℚ := ⟨exCcd, .standard [1] true false true false, [exGroup], 0, 0⟩

/-- **C100** is *false* as documented ("each column moves through the same traps, which therefore preserve occupancy"): the traps
of every pixel start a column with what the traps of the last pixel kept. Here 80 electrons in the last row of the first of
five columns become more than 80 electrons. With traps that are emptied between columns charge is lost to the traps. -/
theorem C100_charge_false :
    ((addCti (exImg 3 5 [[0, 0, 0, 0, 0], [0, 0, 0, 0, 0], [80, 0, 0, 0, 0]]) (some exCarry) 0 .all none .all none).map
      fun x => (x.1.rows.map List.sum).sum) = .ok (13244967792453066867 / 163840000000000000) ∧
    (80 : ℚ) < 13244967792453066867 / 163840000000000000 := by
  refine ⟨?_, by norm_num⟩
  decide +kernel

/-- **C100** is *false* as documented ("allowing trails to extend onto the next column"): the watermark array is full after the
second column of a single row, and the trail ends there, with more than four electrons in the traps. -/
theorem C100_trail_false :
    ((addCti (exImg 1 4 [[80, 0, 0, 0]]) (some exCarry) 0 .all none .all none).map fun x => x.1.rows) =
      .ok [[72, 19 / 5, 0, 0]] ∧ (72 + 19 / 5 + 4 : ℚ) < 80 := by
  refine ⟨?_, by norm_num⟩
  decide +kernel

/-! ### examples -/

/-- The second column does depend on the first, the first not on the second. -/
example : ((clockCharge (exImg 2 2 [[0, 30], [80, 0]]) exCcd exCarry.roe [exGroup] 0 0 [0, 1] [0, 1] none).map
      fun x => (x.1.px 0 0, x.1.px 1 0, x.1.px 0 1)) ≠
      ((clockCharge (exImg 2 2 [[0, 30], [0, 0]]) exCcd exCarry.roe [exGroup] 0 0 [0, 1] [0, 1] none).map
      fun x => (x.1.px 0 0, x.1.px 1 0, x.1.px 0 1)) ∧
    ((clockCharge (exImg 2 2 [[0, 30], [80, 0]]) exCcd exCarry.roe [exGroup] 0 0 [0, 1] [0, 1] none).map
      fun x => (x.1.px 0 0, x.1.px 1 0)) = .ok (0, 324 / 5) ∧
    ((clockCharge (exImg 2 2 [[0, 70], [80, 0]]) exCcd exCarry.roe [exGroup] 0 0 [0, 1] [0] none).map
      fun x => (x.1.px 0 0, x.1.px 1 0)) = .ok (0, 324 / 5) := by decide +kernel

end Arctic
