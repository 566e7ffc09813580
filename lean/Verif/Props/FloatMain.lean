import Verif.Model.FloatMain
import Verif.Props.FloatExpress

/-!
# C70: `add_cti` and `remove_cti` in double precision

`Verif.Model.FloatMain` applies the readout twice (rows, then columns) and repeats that in `remove_cti`, all in double
precision.
-/

set_option linter.unusedSectionVars false
set_option linter.unusedVariables false

namespace Arctic

variable {F : Type}

/-! ### the model of the other modules is the same code -/

/-- In exact arithmetic these are the functions of the other modules. -/
theorem C70_exact {K : Type} [Field K] [LinearOrder K] [IsStrictOrderedRing K] (img : Image K) (n : ℕ)
    (par : Option (Direction K)) (parOffset : ℕ) (parWindow : Window) (ser : Option (Direction K)) (serWindow : Window)
    (tw : Option (List ℕ)) :
    Fp.addCti (Arith.exact K) (Fp.Conv.exact K) img par parOffset parWindow ser serWindow tw =
      addCti img par parOffset parWindow ser serWindow tw ∧
    Fp.removeCti (Arith.exact K) (Fp.Conv.exact K) img n par parOffset parWindow ser serWindow tw =
      removeCti img n par parOffset parWindow ser serWindow tw := by
  have key : ∀ (img : Image K) (par ser : Option (Direction K)),
      Fp.addCti (Arith.exact K) (Fp.Conv.exact K) img par parOffset parWindow ser serWindow tw =
      addCti img par parOffset parWindow ser serWindow tw := by
    intro img par ser
    unfold Fp.addCti addCti
    simp only [Fp.exact_clockDirection]
    rfl
  refine ⟨key img par ser, ?_⟩
  unfold Fp.removeCti removeCti
  simp only [key]
  have : ∀ (n : ℕ) (st : Image K × Option (Direction K) × Option (Direction K)),
      Fp.removeIter (Arith.exact K) (fun cur s => addCti cur s.1 parOffset parWindow s.2 serWindow tw) img n st =
      removeIter (fun cur s => addCti cur s.1 parOffset parWindow s.2 serWindow tw) img n st := by
    intro n
    induction n with
    | zero => intro st; rfl
    | succ n ih =>
      rintro ⟨cur, s⟩
      unfold Fp.removeIter removeIter
      simp only [ih]
      rfl
  exact this n _

/-! ### the three parts of `add_cti` -/

/-- The columns of the second direction. -/
def Fp.serCols (rows : List ℕ) (tw : Option (List ℕ)) (parOffset : ℕ) : Except Err (List ℕ) :=
  match tw with
  | none => .ok rows
  | some tw => serialColumns rows tw parOffset

/-- One direction, which may be absent. -/
def Fp.optDirection (A : Arith F) (C : Fp.Conv F) (img : Image F) (dir : Option (Direction F)) (offset : Direction F → ℕ)
    (rows cols : List ℕ) (tw : Option (List ℕ)) : Except Err (Image F × Option (Direction F)) :=
  match dir with
  | none => .ok (img, none)
  | some d => do
    let (out, roe') ← Fp.clockDirection A C img d.ccd d.roe d.groups d.express (offset d) rows cols tw
    .ok (out, some { d with roe := roe' })

theorem Fp.addCti_eq (A : Arith F) (C : Fp.Conv F) (img : Image F) (par : Option (Direction F)) (parOffset : ℕ)
    (parWindow : Window) (ser : Option (Direction F)) (serWindow : Window) (tw : Option (List ℕ)) :
    Fp.addCti A C img par parOffset parWindow ser serWindow tw =
      Fp.serCols (parWindow.resolve img.nr) tw parOffset >>= fun sc =>
      Fp.optDirection A C img par (fun _ => parOffset) (parWindow.resolve img.nr) (serWindow.resolve img.nc)
        (some (tw.getD (List.range (img.nr + parOffset)))) >>= fun y =>
      Fp.optDirection A C (Fp.transpose y.1) ser (fun d => d.offset) (serWindow.resolve img.nc) sc none >>= fun z =>
      .ok (Fp.transpose z.1, y.2, z.2) := by
  unfold Fp.addCti Fp.serCols Fp.optDirection
  cases tw with
  | none =>
    cases par with
    | none =>
      cases ser with
      | none => rfl
      | some d =>
        simp only [bind, Except.bind]
        split <;> rfl
    | some d =>
      cases ser with
      | none =>
        simp only [bind, Except.bind]
        split <;> rfl
      | some d' =>
        simp only [bind, Except.bind]
        cases Fp.clockDirection A C img d.ccd d.roe d.groups d.express parOffset (parWindow.resolve img.nr)
          (serWindow.resolve img.nc) (some ((none : Option (List ℕ)).getD (List.range (img.nr + parOffset)))) with
        | error e => rfl
        | ok v =>
          simp only
          split <;> rfl
  | some t =>
    simp only [bind, Except.bind]
    cases serialColumns (parWindow.resolve img.nr) t parOffset with
    | error e => rfl
    | ok sc =>
      cases par with
      | none =>
        cases ser with
        | none => rfl
        | some d =>
          simp only
          split <;> rfl
      | some d =>
        cases ser with
        | none =>
          simp only
          split <;> rfl
        | some d' =>
          simp only
          cases Fp.clockDirection A C img d.ccd d.roe d.groups d.express parOffset (parWindow.resolve img.nr)
            (serWindow.resolve img.nc) (some ((some t : Option (List ℕ)).getD (List.range (img.nr + parOffset)))) with
          | error e => rfl
          | ok v =>
            simp only
            split <;> rfl

/-! ### memory safety -/

theorem Fp.bind_error {α β : Type} {x : Except Err α} {f : α → Except Err β} {e : Err} (h : (x >>= f) = .error e) :
    x = .error e ∨ ∃ v, x = .ok v ∧ f v = .error e := by
  cases x with
  | error e' => left; injection h with h; rw [h]
  | ok v => right; exact ⟨v, rfl, h⟩

/-- The readout object never makes an unchecked access. -/
theorem Fp.clockCfg_noOob (A : Arith F) (C : Fp.Conv F) (roe : Roe F) (ccd : CcdView F) (e o : ℕ) (rows : List ℕ)
    (tw : Option (List ℕ)) : Fp.clockCfg A C roe ccd e o rows tw ≠ .error .outOfBounds := by
  have hsel : ∀ {α : Type} (m : Mat α) (w : List ℕ), selectCols m w ≠ .error .outOfBounds := by
    intro α m w h
    unfold selectCols at h
    split at h <;> cases h
  have hspan : ∀ {G : Type} (B : Arith G) (int : ℤ → G) (m : Mat G), Fp.restrictTimeSpan B int m tw ≠ .error .outOfBounds := by
    intro G B int m h
    cases tw with
    | none => cases h
    | some l =>
      simp only [Fp.restrictTimeSpan] at h
      split at h <;> cases h
  have hn : nPixelsOfWindow rows ≠ .error .outOfBounds := by
    intro h
    unfold nPixelsOfWindow at h
    split at h <;> cases h
  have hof : ∀ {G : Type} (B : Arith G) (int : ℤ → G) (mult : ℕ → ℕ → G) (ef : Bool),
      Fp.roeExpressOf B int mult ef rows e o tw ≠ .error .outOfBounds := by
    intro G B int mult ef h
    unfold Fp.roeExpressOf at h
    rcases Fp.bind_error h with h | ⟨n, -, h⟩
    · exact hn h
    rcases Fp.bind_error h with h | ⟨m, -, h⟩
    · exact hsel _ _ h
    rcases Fp.bind_error h with h | ⟨m2, -, h⟩
    · exact hspan _ _ _ h
    rcases Fp.bind_error h with h | ⟨m3, -, h⟩
    · exact hsel _ _ h
    · cases h
  intro h
  unfold Fp.clockCfg at h
  rcases Fp.bind_error h with h | ⟨⟨m, mon, roe'⟩, -, h⟩
  · cases roe with
    | standard d ef b f i =>
      simp only [Fp.expressOf] at h
      rcases Fp.bind_error h with h | ⟨v, -, h⟩
      · unfold Fp.roeExpress at h
        split at h
        · rcases Fp.bind_error h with h | ⟨v, -, h⟩
          · exact hof _ _ _ _ h
          · cases h
        · exact hof _ _ _ _ h
      · cases h
    | injection d n b f i =>
      simp only [Fp.expressOf] at h
      rcases Fp.bind_error h with h | ⟨v, -, h⟩
      · unfold Fp.injectionExpress at h
        rcases Fp.bind_error h with h | ⟨n, -, h⟩
        · exact hn h
        simp only at h
        split at h
        · cases h
        split at h
        · cases h
        rcases Fp.bind_error h with h | ⟨v, -, h⟩
        · exact hspan _ _ _ h
        · cases h
      · cases h
    | pumping d n ef i =>
      simp only [Fp.expressOf] at h
      rcases Fp.bind_error h with h | ⟨v, -, h⟩
      · unfold Fp.pumpingExpress at h
        rcases Fp.bind_error h with h | ⟨n, -, h⟩
        · unfold Fp.pumpMultipliers at h
          simp only at h
          split at h
          · cases h
          split at h <;> cases h
        · cases h
      · cases h
  rcases Fp.bind_error h with h | ⟨sv, -, h⟩
  · cases roe with
    | standard d ef b f i =>
      simp only [Fp.saveOf, Fp.roeSave] at h
      split at h
      · cases h
      split at h <;> cases h
    | injection d n b f i => cases h
    | pumping d n ef i =>
      simp only [Fp.saveOf, Fp.pumpingSave] at h
      split at h <;> cases h
  · cases h

/-- The readout object after a call differs at most in the stored number of transfers of a charge injection. -/
theorem Fp.clockCfg_roe {A : Arith F} {C : Fp.Conv F} {roe roe' : Roe F} {ccd : CcdView F} {e o : ℕ} {rows : List ℕ}
    {tw : Option (List ℕ)} {cfg : ClockCfg F} (h : Fp.clockCfg A C roe ccd e o rows tw = .ok (cfg, roe')) :
    roe' = roe ∨ ∃ d n n' b f i, roe = .injection d n b f i ∧ roe' = .injection d n' b f i := by
  unfold Fp.clockCfg at h
  obtain ⟨⟨m, mon, r⟩, h1, h⟩ := bind_eq_ok h
  obtain ⟨sv, h2, h⟩ := bind_eq_ok h
  injection h with h
  injection h with _ h
  subst h
  cases roe with
  | standard d ef b f i =>
    left
    simp only [Fp.expressOf] at h1
    obtain ⟨v, -, h1⟩ := bind_eq_ok h1
    injection h1 with h1
    injection h1 with _ h1
    injection h1 with _ h1
    exact h1.symm
  | injection d n b f i =>
    right
    simp only [Fp.expressOf] at h1
    obtain ⟨v, -, h1⟩ := bind_eq_ok h1
    injection h1 with h1
    injection h1 with _ h1
    injection h1 with _ h1
    exact ⟨d, n, _, b, f, i, rfl, h1.symm⟩
  | pumping d n ef i =>
    left
    simp only [Fp.expressOf] at h1
    obtain ⟨v, -, h1⟩ := bind_eq_ok h1
    injection h1 with h1
    injection h1 with _ h1
    injection h1 with _ h1
    exact h1.symm

/-- What is asked of the arguments of one direction, for a window in an image with `n` rows: standard readout or charge
injection with traps emptied before each pass and between columns, no slow capture, no trap before the first row. -/
structure DirectionOk (A : Arith F) (rows : List ℕ) (n : ℕ) (d : Direction F) : Prop where
  noSaves : NoSaves (Fp.shape d.roe)
  between : (Fp.shape d.roe).emptyBetween = true
  found : RowsFound rows (Fp.shape d.roe)
  phases : d.ccd.fractions.length ≤ (Fp.shape d.roe).nPhases
  inside : ∀ w ∈ rows, w < n
  low : ∀ w ∈ rows, ∀ z ∈ (Fp.shape d.roe).accessed, 0 ≤ (w : ℤ) + z
  fast : ∀ g ∈ d.groups, Fp.notSlow g.kind
  fill : ∀ ph < d.ccd.fractions.length, Fp.FillOk A (d.ccd.fill ph)

theorem DirectionOk.next {A : Arith F} {C : Fp.Conv F} {rows : List ℕ} {n : ℕ} {d : Direction F}
    (h : DirectionOk A rows n d) {e o : ℕ} {tw : Option (List ℕ)} {rows' : List ℕ} {cfg : ClockCfg F} {roe' : Roe F}
    (hc : Fp.clockCfg A C d.roe d.ccd e o rows' tw = .ok (cfg, roe')) : DirectionOk A rows n { d with roe := roe' } := by
  rcases Fp.clockCfg_roe hc with rfl | ⟨dw, k, k', b, f, i, hr, rfl⟩
  · exact h
  · have h' := h
    obtain ⟨ccd, roe, groups, ex, off⟩ := d
    simp only at hr
    subst hr
    exact ⟨trivial, h'.between, h'.found, h'.phases, h'.inside, h'.low, h'.fast, h'.fill⟩

theorem Fp.clockDirection_safe (sum : List B64 → B64) (img : Image B64) (d : Direction B64) (e o : ℕ)
    (rows columns : List ℕ) (tw : Option (List ℕ)) (hd : DirectionOk (B64.arith sum) rows img.nr d)
    (hcols : ∀ c ∈ columns, c < img.nc) :
    match Fp.clockDirection (B64.arith sum) B64.conv img d.ccd d.roe d.groups e o rows columns tw with
    | .ok (out, roe') => out.nr = img.nr ∧ out.nc = img.nc ∧
        ∀ rows' n, DirectionOk (B64.arith sum) rows' n d → DirectionOk (B64.arith sum) rows' n { d with roe := roe' }
    | .error err => err ≠ .outOfBounds := by
  have h := C67_call sum img d.ccd d.groups d.roe e o rows columns tw hd.noSaves hd.between hd.found hd.phases hd.inside
    hd.low hcols hd.fast hd.fill
  revert h
  cases hc : Fp.clockDirection (B64.arith sum) B64.conv img d.ccd d.roe d.groups e o rows columns tw with
  | error err =>
    rintro (h | rfl | ⟨rfl, -⟩)
    · rintro rfl
      exact Fp.clockCfg_noOob _ _ _ _ _ _ _ _ h
    · intro h; cases h
    · intro h; cases h
  | ok v =>
    rintro ⟨h1, h2⟩
    refine ⟨h1, h2, fun rows' n hd' => ?_⟩
    unfold Fp.clockDirection at hc
    obtain ⟨⟨cfg, roe'⟩, hcfg, hc⟩ := bind_eq_ok hc
    obtain ⟨out, _, hc⟩ := bind_eq_ok hc
    injection hc with hc
    subst hc
    exact hd'.next hcfg

/-- What is asked of the arguments of `add_cti` and `remove_cti` for an image of a given size. -/
structure ArgumentsOk (A : Arith F) (nr nc : ℕ) (parWindow serWindow : Window) (par ser : Option (Direction F)) : Prop where
  par : ∀ d ∈ par, DirectionOk A (parWindow.resolve nr) nr d
  ser : ∀ d ∈ ser, DirectionOk A (serWindow.resolve nc) nc d
  rows : ∀ r ∈ parWindow.resolve nr, r < nr
  cols : ∀ c ∈ serWindow.resolve nc, c < nc

theorem serialColumns_below {rows tw l : List ℕ} {o n : ℕ} (h : serialColumns rows tw o = .ok l) (hr : ∀ r ∈ rows, r < n) :
    ∀ r ∈ l, r < n := by
  unfold serialColumns at h
  split at h
  · rename_i r0 r1 t0 t1 h0 h1 _ _
    injection h with h
    subst h
    intro r hm
    unfold pyRange at hm
    rw [List.mem_map] at hm
    obtain ⟨i, hi, rfl⟩ := hm
    rw [List.mem_range] at hi
    have := hr r1 (List.mem_of_getLast? h1)
    omega
  · cases h

theorem Fp.serCols_safe (rows : List ℕ) (tw : Option (List ℕ)) (o : ℕ) {n : ℕ} (hr : ∀ r ∈ rows, r < n) :
    match Fp.serCols rows tw o with
    | .ok l => ∀ r ∈ l, r < n
    | .error err => err ≠ .outOfBounds := by
  cases tw with
  | none => exact hr
  | some t =>
    change match serialColumns rows t o with
      | .ok l => ∀ r ∈ l, r < n
      | .error err => err ≠ .outOfBounds
    cases hs : serialColumns rows t o with
    | ok l => exact serialColumns_below hs hr
    | error err =>
      rintro rfl
      unfold serialColumns at hs
      split at hs <;> cases hs

theorem Fp.optDirection_safe (sum : List B64 → B64) (img : Image B64) (dir : Option (Direction B64))
    (offset : Direction B64 → ℕ) (rows columns : List ℕ) (tw : Option (List ℕ))
    (hd : ∀ d ∈ dir, DirectionOk (B64.arith sum) rows img.nr d) (hcols : ∀ c ∈ columns, c < img.nc) :
    match Fp.optDirection (B64.arith sum) B64.conv img dir offset rows columns tw with
    | .ok (out, dir') => out.nr = img.nr ∧ out.nc = img.nc ∧ ∀ d ∈ dir', DirectionOk (B64.arith sum) rows img.nr d
    | .error err => err ≠ .outOfBounds := by
  cases dir with
  | none => exact ⟨rfl, rfl, fun d hd => by cases hd⟩
  | some d =>
    have h := Fp.clockDirection_safe sum img d d.express (offset d) rows columns tw (hd d rfl) hcols
    revert h
    unfold Fp.optDirection
    simp only [bind, Except.bind]
    cases Fp.clockDirection (B64.arith sum) B64.conv img d.ccd d.roe d.groups d.express (offset d) rows columns tw with
    | error err => exact id
    | ok v =>
      rintro ⟨h1, h2, h3⟩
      refine ⟨h1, h2, fun d' hd' => ?_⟩
      cases hd'
      exact h3 _ _ (hd d rfl)

/-- `add_cti` in double precision: an image of the same size or an exception, never an access outside an array. -/
theorem C70_add_safe (sum : List B64 → B64) (img : Image B64) (par : Option (Direction B64)) (parOffset : ℕ)
    (parWindow : Window) (ser : Option (Direction B64)) (serWindow : Window) (tw : Option (List ℕ))
    (h : ArgumentsOk (B64.arith sum) img.nr img.nc parWindow serWindow par ser) :
    match Fp.addCti (B64.arith sum) B64.conv img par parOffset parWindow ser serWindow tw with
    | .ok (out, par', ser') => out.nr = img.nr ∧ out.nc = img.nc ∧
        ArgumentsOk (B64.arith sum) img.nr img.nc parWindow serWindow par' ser'
    | .error err => err ≠ .outOfBounds := by
  rw [Fp.addCti_eq]
  have hsc := Fp.serCols_safe (parWindow.resolve img.nr) tw parOffset h.rows
  cases hs : Fp.serCols (parWindow.resolve img.nr) tw parOffset with
  | error err => rw [hs] at hsc; exact hsc
  | ok sc =>
    rw [hs] at hsc
    have hp := Fp.optDirection_safe sum img par (fun _ => parOffset) (parWindow.resolve img.nr) (serWindow.resolve img.nc)
      (some (tw.getD (List.range (img.nr + parOffset)))) h.par h.cols
    simp only [bind, Except.bind]
    cases hy : Fp.optDirection (B64.arith sum) B64.conv img par (fun _ => parOffset) (parWindow.resolve img.nr)
        (serWindow.resolve img.nc) (some (tw.getD (List.range (img.nr + parOffset)))) with
    | error err => rw [hy] at hp; exact hp
    | ok v =>
      rw [hy] at hp
      obtain ⟨m1, m2, m3⟩ := hp
      have hq := Fp.optDirection_safe sum (Fp.transpose v.1) ser (fun d => d.offset) (serWindow.resolve img.nc) sc none
        (by change ∀ d ∈ ser, DirectionOk _ _ v.1.nc d; rw [m2]; exact h.ser)
        (by change ∀ c ∈ sc, c < v.1.nr; rw [m1]; exact hsc)
      simp only
      cases hz : Fp.optDirection (B64.arith sum) B64.conv (Fp.transpose v.1) ser (fun d => d.offset)
          (serWindow.resolve img.nc) sc none with
      | error err => rw [hz] at hq; exact hq
      | ok z =>
        rw [hz] at hq
        obtain ⟨n1, n2, n3⟩ := hq
        change ∀ d ∈ z.2, DirectionOk _ _ v.1.nc d at n3
        rw [m2] at n3
        exact ⟨n2.trans m1, n1.trans m2, m3, n3, h.rows, h.cols⟩

/-- `remove_cti` in double precision: the same, whatever becomes of the numbers in the iterations. -/
theorem C70_remove_safe (sum : List B64 → B64) (img : Image B64) (n : ℕ) (par : Option (Direction B64)) (parOffset : ℕ)
    (parWindow : Window) (ser : Option (Direction B64)) (serWindow : Window) (tw : Option (List ℕ))
    (h : ArgumentsOk (B64.arith sum) img.nr img.nc parWindow serWindow par ser) :
    match Fp.removeCti (B64.arith sum) B64.conv img n par parOffset parWindow ser serWindow tw with
    | .ok (out, _) => out.nr = img.nr ∧ out.nc = img.nc
    | .error err => err ≠ .outOfBounds := by
  unfold Fp.removeCti
  have key : ∀ (n : ℕ) (cur : Image B64) (par ser : Option (Direction B64)), cur.nr = img.nr → cur.nc = img.nc →
      ArgumentsOk (B64.arith sum) img.nr img.nc parWindow serWindow par ser →
      match Fp.removeIter (B64.arith sum) (fun cur s => Fp.addCti (B64.arith sum) B64.conv cur s.1 parOffset parWindow s.2
        serWindow tw) img n (cur, par, ser) with
      | .ok (out, _) => out.nr = img.nr ∧ out.nc = img.nc
      | .error err => err ≠ .outOfBounds := by
    intro n
    induction n with
    | zero => intro cur par ser h1 h2 _; exact ⟨h1, h2⟩
    | succ n ih =>
      intro cur par ser h1 h2 h
      unfold Fp.removeIter
      have := C70_add_safe sum cur par parOffset parWindow ser serWindow tw (by rwa [h1, h2])
      revert this
      simp only [bind, Except.bind]
      cases Fp.addCti (B64.arith sum) B64.conv cur par parOffset parWindow ser serWindow tw with
      | error err => exact id
      | ok v =>
        rintro ⟨-, -, h3⟩
        rw [h1, h2] at h3
        exact ih _ _ _ h1 h2 h3
  exact key n img par ser rfl rfl h

/-! ### signs -/

theorem Fp.clockDirection_ok {A : Arith F} {C : Fp.Conv F} {img out : Image F} {ccd : CcdView F} {roe roe' : Roe F}
    {groups : List (Group F)} {e o : ℕ} {rows columns : List ℕ} {tw : Option (List ℕ)}
    (h : Fp.clockDirection A C img ccd roe groups e o rows columns tw = .ok (out, roe')) :
    ∃ cfg, Fp.clockCfg A C roe ccd e o rows tw = .ok (cfg, roe') ∧
      Fp.clockCharge A img ccd groups cfg (nPadding (Fp.shape roe).accessed) (Fp.maxNTransfers roe cfg) columns = .ok out := by
  unfold Fp.clockDirection at h
  obtain ⟨⟨cfg, r⟩, h1, h⟩ := bind_eq_ok h
  obtain ⟨out', h2, h⟩ := bind_eq_ok h
  injection h with h
  injection h with h3 h4
  subst h3 h4
  exact ⟨cfg, h1, h2⟩

theorem Fp.optDirection_nonneg {A : Arith F} (h0 : A.lt A.zero A.zero = false) {C : Fp.Conv F} {img : Image F}
    {dir : Option (Direction F)} {offset : Direction F → ℕ} {rows columns : List ℕ} {tw : Option (List ℕ)}
    {v : Image F × Option (Direction F)} (h : Fp.optDirection A C img dir offset rows columns tw = .ok v)
    (hi : ∀ r < img.nr, ∀ c < img.nc, A.lt (img.px r c) A.zero = false) :
    ∀ r < v.1.nr, ∀ c < v.1.nc, A.lt (v.1.px r c) A.zero = false := by
  cases dir with
  | none => injection h with h; subst h; exact hi
  | some d =>
    obtain ⟨⟨out, roe'⟩, h1, h⟩ := bind_eq_ok h
    injection h with h
    subst h
    obtain ⟨cfg, -, h2⟩ := Fp.clockDirection_ok h1
    exact C67_nonneg A h0 _ _ _ _ _ _ _ _ hi h2

/-- Whatever the arithmetic and the traps, `add_cti` makes no pixel negative. -/
theorem C70_nonneg (A : Arith F) (C : Fp.Conv F) (h0 : A.lt A.zero A.zero = false) (img out : Image F)
    (par par' : Option (Direction F)) (parOffset : ℕ) (parWindow : Window) (ser ser' : Option (Direction F))
    (serWindow : Window) (tw : Option (List ℕ))
    (hi : ∀ r < img.nr, ∀ c < img.nc, A.lt (img.px r c) A.zero = false)
    (h : Fp.addCti A C img par parOffset parWindow ser serWindow tw = .ok (out, par', ser')) :
    ∀ r < out.nr, ∀ c < out.nc, A.lt (out.px r c) A.zero = false := by
  rw [Fp.addCti_eq] at h
  obtain ⟨sc, -, h⟩ := bind_eq_ok h
  obtain ⟨v, h1, h⟩ := bind_eq_ok h
  obtain ⟨z, h2, h⟩ := bind_eq_ok h
  injection h with h
  injection h with h3 _
  subst h3
  have := Fp.optDirection_nonneg h0 h1 hi
  have := Fp.optDirection_nonneg h0 h2 fun r hr c hc => this c hc r hr
  exact fun r hr c hc => this c hc r hr

/-! ### pixels outside the windows -/

theorem Fp.clockCharge_shape {A : Arith F} {img out : Image F} {ccd : CcdView F} {groups : List (Group F)}
    {cfg : ClockCfg F} {padding transfers : ℕ} {columns : List ℕ}
    (h : Fp.clockCharge A img ccd groups cfg padding transfers columns = .ok out) : out.nr = img.nr ∧ out.nc = img.nc := by
  unfold Fp.clockCharge at h
  obtain ⟨⟨o, a⟩, h1, h⟩ := bind_eq_ok h
  injection h with h
  subst h
  have := Fp.clockLoops_kept (A := A) _ cfg columns
    (P := fun i => i.nr = img.nr + padding ∧ i.nc = img.nc) (fun c _ i hi r old delta _ _ _ => hi) _ _ ⟨rfl, rfl⟩ h1
  exact ⟨by have h := this.1; change o.nr - padding = _; change o.nr = _ at h; omega, this.2⟩

theorem Fp.optDirection_untouched {A : Arith F} {C : Fp.Conv F} {img : Image F}
    {dir : Option (Direction F)} {offset : Direction F → ℕ} {rows columns : List ℕ} {tw : Option (List ℕ)}
    {v : Image F × Option (Direction F)} (h : Fp.optDirection A C img dir offset rows columns tw = .ok v) :
    v.1.nr = img.nr ∧ v.1.nc = img.nc ∧ (v.2 = none ↔ dir = none) ∧
      ∀ r < img.nr, ∀ c, dir = none ∨ c ∉ columns → v.1.px r c = img.px r c := by
  cases dir with
  | none => injection h with h; subst h; exact ⟨rfl, rfl, Iff.rfl, fun _ _ _ _ => rfl⟩
  | some d =>
    obtain ⟨⟨out, roe'⟩, h1, h⟩ := bind_eq_ok h
    injection h with h
    subst h
    obtain ⟨cfg, -, h2⟩ := Fp.clockDirection_ok h1
    refine ⟨(Fp.clockCharge_shape h2).1, (Fp.clockCharge_shape h2).2, by simp, fun r hr c hc => ?_⟩
    rcases hc with hc | hc
    · cases hc
    · exact C68_untouched A _ _ _ _ _ _ _ _ c hc h2 r hr

/-- The pixels that neither direction processes: those in no column of the first direction and no row of the second. -/
def Outside (par ser : Option (Direction F)) (parWindow serWindow : Window) (tw : Option (List ℕ)) (parOffset nr nc : ℕ)
    (r c : ℕ) : Prop :=
  (par = none ∨ c ∉ serWindow.resolve nc) ∧
    (ser = none ∨ ∀ sc, Fp.serCols (parWindow.resolve nr) tw parOffset = .ok sc → r ∉ sc)

/-- `add_cti` keeps every bit of the pixels that neither direction processes. -/
theorem C70_add_untouched (A : Arith F) (C : Fp.Conv F) (img out : Image F) (par par' : Option (Direction F))
    (parOffset : ℕ) (parWindow : Window) (ser ser' : Option (Direction F)) (serWindow : Window) (tw : Option (List ℕ))
    (r c : ℕ) (hr : r < img.nr) (hc : c < img.nc) (ho : Outside par ser parWindow serWindow tw parOffset img.nr img.nc r c)
    (h : Fp.addCti A C img par parOffset parWindow ser serWindow tw = .ok (out, par', ser')) :
    out.px r c = img.px r c ∧ out.nr = img.nr ∧ out.nc = img.nc ∧
      Outside par' ser' parWindow serWindow tw parOffset img.nr img.nc r c := by
  rw [Fp.addCti_eq] at h
  obtain ⟨sc, hs, h⟩ := bind_eq_ok h
  obtain ⟨v, h1, h⟩ := bind_eq_ok h
  obtain ⟨z, h2, h⟩ := bind_eq_ok h
  injection h with h
  injection h with h3 h4
  injection h4 with h4 h5
  subst h3 h4 h5
  obtain ⟨a1, a2, a3, a4⟩ := Fp.optDirection_untouched h1
  obtain ⟨b1, b2, b3, b4⟩ := Fp.optDirection_untouched h2
  refine ⟨?_, b2.trans a1, b1.trans a2, ?_, ?_⟩
  · have e1 := b4 c (by change c < v.1.nc; omega) r (ho.2.imp id fun h => h sc hs)
    exact e1.trans (a4 r hr c ho.1)
  · exact ho.1.imp a3.2 id
  · exact ho.2.imp b3.2 id

/-- What `remove_cti` does in any arithmetic to such a pixel. -/
theorem C70_remove_outside (A : Arith F) (C : Fp.Conv F) (img out : Image F) (n : ℕ) (par : Option (Direction F))
    (parOffset : ℕ) (parWindow : Window) (ser : Option (Direction F)) (serWindow : Window) (tw : Option (List ℕ))
    (s' : Option (Direction F) × Option (Direction F))
    (r c : ℕ) (hr : r < img.nr) (hc : c < img.nc) (ho : Outside par ser parWindow serWindow tw parOffset img.nr img.nc r c)
    (h : Fp.removeCti A C img n par parOffset parWindow ser serWindow tw = .ok (out, s')) :
    out.px r c = (fun x => A.add x (A.sub (img.px r c) x))^[n] (img.px r c) := by
  unfold Fp.removeCti at h
  have key : ∀ (n : ℕ) (cur : Image F) (par ser : Option (Direction F)), cur.nr = img.nr → cur.nc = img.nc →
      Outside par ser parWindow serWindow tw parOffset img.nr img.nc r c →
      Fp.removeIter A (fun cur s => Fp.addCti A C cur s.1 parOffset parWindow s.2 serWindow tw) img n (cur, par, ser) =
        .ok (out, s') →
      out.px r c = (fun x => A.add x (A.sub (img.px r c) x))^[n] (cur.px r c) := by
    intro n
    induction n with
    | zero =>
      intro cur par ser _ _ _ h
      injection h with h
      injection h with h _
      rw [← h]
      rfl
    | succ n ih =>
      intro cur par ser h1 h2 ho h
      unfold Fp.removeIter at h
      obtain ⟨⟨added, par', ser'⟩, ha, h⟩ := bind_eq_ok h
      obtain ⟨e1, -, -, e2⟩ := C70_add_untouched A C cur added par par' parOffset parWindow ser ser' serWindow tw r c
        (by omega) (by omega) (by rwa [h1, h2]) ha
      rw [h1, h2] at e2
      have := ih { cur with px := fun r c => A.add (cur.px r c) (A.sub (img.px r c) (added.px r c)) } _ _ h1 h2 e2 h
      rw [this, Function.iterate_succ_apply]
      simp only [e1]
  exact key n img par ser rfl rfl ho h

theorem B64.sub_self_fin {q : ℚ} (hq : B64.Rep q) : B64.sub (.fin q hq) (.fin q hq) = B64.zero := by
  unfold B64.sub B64.neg
  split
  · rename_i h
    cases h
  · rename_i h; cases h
  · rename_i h; cases h
  · rename_i q' _ h
    injection h with h
    subst h
    split
    · rename_i h0
      subst h0
      rfl
    · have hr : B64.Rep (-q) := by
        constructor
        · rw [B64.round_neg, hq.1]
        · rw [abs_neg]; exact hq.2
      rw [B64.pack_rep hr]
      unfold B64.add
      simp only [add_neg_cancel]
      exact B64.pack_rep B64.rep_zero

theorem B64.add_zero_fin {q : ℚ} (hq : B64.Rep q) : B64.add (.fin q hq) B64.zero = .fin q hq := by
  unfold B64.zero B64.add
  simp only [add_zero]
  exact B64.pack_rep hq

/-- A finite pixel that neither direction processes keeps its value in `remove_cti`; only the sign of a zero can change. -/
theorem C70_remove_untouched (sum : List B64 → B64) (img out : Image B64) (n : ℕ) (par : Option (Direction B64))
    (parOffset : ℕ) (parWindow : Window) (ser : Option (Direction B64)) (serWindow : Window) (tw : Option (List ℕ))
    (s' : Option (Direction B64) × Option (Direction B64))
    (r c : ℕ) (hr : r < img.nr) (hc : c < img.nc) (ho : Outside par ser parWindow serWindow tw parOffset img.nr img.nc r c)
    (h : Fp.removeCti (B64.arith sum) B64.conv img n par parOffset parWindow ser serWindow tw = .ok (out, s')) :
    (∀ q hq, img.px r c = .fin q hq → out.px r c = img.px r c) ∧
    (img.px r c = .negZero → out.px r c = if n = 0 then .negZero else B64.zero) ∧
    (∀ b, img.px r c = .inf b → out.px r c = if n = 0 then .inf b else .nan) := by
  have key := C70_remove_outside (B64.arith sum) B64.conv img out n par parOffset parWindow ser serWindow tw s' r c hr hc ho h
  refine ⟨fun q hq hv => ?_, fun hv => ?_, fun b hv => ?_⟩
  · rw [key, hv]
    refine Function.iterate_fixed ?_ n
    change B64.add _ (B64.sub _ _) = _
    rw [B64.sub_self_fin, B64.add_zero_fin]
  · rw [key, hv]
    cases n with
    | zero => rfl
    | succ n =>
      rw [if_neg (by omega), Function.iterate_succ_apply]
      have e1 : (B64.arith sum).add B64.negZero ((B64.arith sum).sub B64.negZero B64.negZero) = B64.zero := rfl
      simp only [e1]
      refine Function.iterate_fixed ?_ n
      change B64.add B64.zero (B64.sub B64.negZero B64.zero) = _
      decide +kernel
  · rw [key, hv]
    cases n with
    | zero => rfl
    | succ n =>
      rw [if_neg (by omega), Function.iterate_succ_apply]
      have e1 : (B64.arith sum).add (B64.inf b) ((B64.arith sum).sub (B64.inf b) (B64.inf b)) = B64.nan := by
        cases b <;> rfl
      simp only [e1]
      exact Function.iterate_fixed rfl n

/-! ### columns -/

theorem Fp.clockCfg_between {A : Arith F} {C : Fp.Conv F} {roe roe' : Roe F} {ccd : CcdView F} {e o : ℕ} {rows : List ℕ}
    {tw : Option (List ℕ)} {cfg : ClockCfg F} (h : Fp.clockCfg A C roe ccd e o rows tw = .ok (cfg, roe')) :
    cfg.emptyBetween = (Fp.shape roe).emptyBetween ∧ (Fp.shape roe').emptyBetween = (Fp.shape roe).emptyBetween := by
  refine ⟨?_, ?_⟩
  · unfold Fp.clockCfg at h
    obtain ⟨⟨m, mon, r⟩, h1, h⟩ := bind_eq_ok h
    obtain ⟨sv, h2, h⟩ := bind_eq_ok h
    injection h with h
    injection h with h _
    rw [← h]
  · rcases Fp.clockCfg_roe h with rfl | ⟨dw, k, k', b, f, i, rfl, rfl⟩
    · rfl
    · rfl

/-- One call for the parallel direction, for one column. -/
theorem Fp.addCti_column {A : Arith F} {C : Fp.Conv F} {img img' out : Image F} {d : Direction F} {o : ℕ}
    {parWindow serWindow : Window} {tw : Option (List ℕ)} {c : ℕ} {s' : Option (Direction F) × Option (Direction F)}
    (hb : (Fp.shape d.roe).emptyBetween = true) (hnd : (serWindow.resolve img.nc).Nodup)
    (hc : c ∈ serWindow.resolve img.nc) (hnr : img'.nr = img.nr) (hin : c < img.nc) (hin' : c < img'.nc)
    (hag : ∀ r, img'.px r c = img.px r c)
    (h : Fp.addCti A C img (some d) o parWindow none serWindow tw = .ok (out, s')) :
    ∃ out', Fp.addCti A C img' (some d) o parWindow none (.pixel c) tw = .ok (out', s') ∧
      (∀ r, out'.px r c = out.px r c) ∧ ∃ d', s' = (some d', none) ∧ (Fp.shape d'.roe).emptyBetween = true := by
  rw [Fp.addCti_eq] at h ⊢
  obtain ⟨sc, hs, h⟩ := bind_eq_ok h
  obtain ⟨v, h1, h⟩ := bind_eq_ok h
  obtain ⟨z, h2, h⟩ := bind_eq_ok h
  injection h with h
  injection h with h3 h4
  injection h2 with h2
  subst h2
  obtain ⟨⟨o1, roe'⟩, g1, g2⟩ := bind_eq_ok h1
  injection g2 with g2
  subst g2
  subst h4
  obtain ⟨cfg, hcfg, hcl⟩ := Fp.clockDirection_ok g1
  obtain ⟨e1, e2⟩ := Fp.clockCfg_between hcfg
  obtain ⟨out', k1, k2⟩ := C68_columns A img img' o1 d.ccd d.groups cfg _ _ _ (e1.trans hb) hnd c hc hnr hin hin' hag hcl
  refine ⟨out', ?_, fun r => ?_, _, rfl, e2.trans hb⟩
  · rw [hnr, hs]
    have : Fp.optDirection A C img' (some d) (fun _ => o) (parWindow.resolve img.nr) ((Window.pixel c).resolve img'.nc)
        (some (tw.getD (List.range (img.nr + o)))) = .ok (out', some { d with roe := roe' }) := by
      unfold Fp.optDirection Fp.clockDirection
      simp only [bind, Except.bind]
      rw [hcfg]
      simp only [Window.resolve]
      rw [k1]
    change (Fp.optDirection A C img' (some d) (fun _ => o) (parWindow.resolve img.nr) ((Window.pixel c).resolve img'.nc)
        (some (tw.getD (List.range (img.nr + o)))) >>= _) = _
    rw [this]
    rfl
  · rw [← h3]
    exact k2 r

/-- Removal of parallel trails: a column comes out, bit for bit, as if it were alone in the image. -/
theorem C70_columns (A : Arith F) (C : Fp.Conv F) (img img' out : Image F) (n : ℕ) (d : Direction F) (o : ℕ)
    (parWindow serWindow : Window) (tw : Option (List ℕ)) (s' : Option (Direction F) × Option (Direction F))
    (hb : (Fp.shape d.roe).emptyBetween = true) (hnd : (serWindow.resolve img.nc).Nodup) (c : ℕ)
    (hc : c ∈ serWindow.resolve img.nc) (hnr : img'.nr = img.nr) (hin : c < img.nc) (hin' : c < img'.nc)
    (hag : ∀ r, img'.px r c = img.px r c)
    (h : Fp.removeCti A C img n (some d) o parWindow none serWindow tw = .ok (out, s')) :
    ∃ out', Fp.removeCti A C img' n (some d) o parWindow none (.pixel c) tw = .ok (out', s') ∧
      ∀ r, out'.px r c = out.px r c := by
  unfold Fp.removeCti at h ⊢
  have key : ∀ (n : ℕ) (cur cur' : Image F) (d : Direction F), (Fp.shape d.roe).emptyBetween = true →
      cur.nr = img.nr → cur.nc = img.nc → cur'.nr = img.nr → cur'.nc = img'.nc → (∀ r, cur'.px r c = cur.px r c) →
      Fp.removeIter A (fun cur s => Fp.addCti A C cur s.1 o parWindow s.2 serWindow tw) img n (cur, some d, none) =
        .ok (out, s') →
      ∃ out', Fp.removeIter A (fun cur s => Fp.addCti A C cur s.1 o parWindow s.2 (.pixel c) tw) img' n
        (cur', some d, none) = .ok (out', s') ∧ ∀ r, out'.px r c = out.px r c := by
    intro n
    induction n with
    | zero =>
      intro cur cur' d _ _ _ _ _ hag h
      injection h with h
      injection h with h h'
      subst h h'
      exact ⟨cur', rfl, hag⟩
    | succ n ih =>
      intro cur cur' d hb n1 n2 n3 n4 hag2 h
      unfold Fp.removeIter at h ⊢
      obtain ⟨⟨added, t⟩, h1, h⟩ := bind_eq_ok h
      obtain ⟨added', k1, k2, d', rfl, k3⟩ := Fp.addCti_column (img' := cur') hb (by rw [n2]; exact hnd)
        (by rw [n2]; exact hc) (n3.trans n1.symm) (by omega) (by omega) hag2 h1
      simp only [k1]
      refine ih { cur with px := fun r c => A.add (cur.px r c) (A.sub (img.px r c) (added.px r c)) }
        { cur' with px := fun r c => A.add (cur'.px r c) (A.sub (img'.px r c) (added'.px r c)) } d' k3 n1 n2 n3 n4 ?_ h
      intro r
      simp only [hag2, hag, k2]
  exact key n img img' d hb rfl rfl hnr rfl hag h

/-! ### examples -/

def exDblDir : Direction B64 := ⟨exDblCcd, exDblReadout, exDblGroups, 0, 0⟩

theorem exDblDir_ok (n : ℕ) : DirectionOk dblArith (List.range n) n exDblDir where
  noSaves := rfl
  between := rfl
  found := trivial
  phases := by decide
  inside := fun w hw => List.mem_range.1 hw
  low := fun w _ z hz => by
    have : z = 0 := by
      have h : (Fp.shape exDblDir.roe).accessed = [0, 0, 0] := by decide +kernel
      rw [h] at hz; simpa using hz
    omega
  fast := fun g hg => by
    rcases List.mem_singleton.1 hg with rfl
    trivial
  fill := fun _ _ => exDbl_fill

/-- The hypotheses of `C70_add_safe` and `C70_remove_safe` hold for a simple model in both directions and every image. -/
example (img : Image B64) : ArgumentsOk dblArith img.nr img.nc .all .all (some exDblDir) (some exDblDir) where
  par := fun d hd => by cases hd; exact exDblDir_ok img.nr
  ser := fun d hd => by cases hd; exact exDblDir_ok img.nc
  rows := fun r hr => List.mem_range.1 hr
  cols := fun c hc => List.mem_range.1 hc

/-- An image with an infinite pixel and negative zeros in the second column. -/
def exDblTwo : Image B64 :=
  ⟨3, 2, fun r c => if c = 1 then (if r = 0 then .inf false else .negZero) else dbl ([80, 1 / 10, 3 / 10].getD r 0)⟩

/-- Trails are removed from the first column only; the infinite pixel in the second becomes NaN. -/
theorem C70_infinite_pixel :
    (Fp.removeCti dblArith B64.conv exDblTwo 2 (some exDblDir) 0 .all none (.pixel 0) none).map
      (fun x => (List.range 3).map fun r => (x.1.px r 0, x.1.px r 1)) =
    .ok [(dbl (6248744482976563 / 70368744177664), .nan), (dbl (-4662686469457593 / 1125899906842624), B64.zero),
      (dbl (-8280404558926441 / 4503599627370496), B64.zero)] := by
  decide +kernel

/-- The second column is outside. -/
example (r : ℕ) : Outside (some exDblDir) none .all (.pixel 0) none 0 3 2 r 1 :=
  ⟨Or.inr (by simp [Window.resolve]), Or.inl rfl⟩

end Arctic
