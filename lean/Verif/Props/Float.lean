import Verif.Lemmas.FloatExact
import Verif.Lemmas.FloatCausal
import Verif.Lemmas.FloatFill
import Verif.Props.Causality

/-!
# Floating point (C67, C68)

`Verif.Model.Float` writes the clocking code once more over an arbitrary arithmetic and `Verif.Model.Binary64` defines
IEEE double precision. The results here hold for double precision with its rounding, overflow, signed zeros, infinities
and NaN, and for every order in which `np.sum` may add.
-/

set_option linter.unusedSectionVars false
set_option linter.unusedVariables false

namespace Arctic

variable {F : Type}

/-! ### the model of the other modules is the same code -/

/-- In exact arithmetic this code computes what the code of the other modules computes. -/
theorem C67_exact {K : Type} [Field K] [LinearOrder K] [IsStrictOrderedRing K] (img : Image K) (ccd : CcdView K)
    (roe roe' : Roe K) (groups : List (Group K)) (e o : ℕ) (rows columns : List ℕ) (tw : Option (List ℕ))
    (cfg : ClockCfg K) (h : clockCfg roe ccd e o rows tw = .ok (cfg, roe')) :
    clockCharge img ccd roe groups e o rows columns tw =
      (Fp.clockCharge (Arith.exact K) img ccd groups cfg (nPadding roe.accessed) (maxNTransfers roe cfg) columns).map
        fun out => (out, roe') :=
  Fp.exact_clockCharge img ccd roe groups e o rows columns tw h

/-- The configurations of the default readout (traps emptied before each pass and between columns) have the integers
that are asked for. -/
theorem C67_configuration (ccd : CcdView ℚ) (roe roe' : Roe ℚ) (e o : ℕ) (rows : List ℕ) (tw : Option (List ℕ))
    (cfg : ClockCfg ℚ) (h : clockCfg roe ccd e o rows tw = .ok (cfg, roe')) (hs : NoSaves roe)
    (hb : roe.emptyBetween = true) (hr : RowsFound rows roe) (hp : ccd.fractions.length ≤ roe.nPhases) :
    Fp.ShapeOf (Arith.exact ℚ) cfg roe ccd rows ∧ maxNTransfers roe cfg = cfg.expr.nc * cfg.steps.length := by
  obtain ⟨f1, f2, f3, f4, f5, f6, f7, f8⟩ := clockCfg_fields h
  have hmon := clockCfg_monitor h hr
  have hnc : cfg.monitor.nc = cfg.expr.nc ∧ ∀ k j, cfg.saveMat.e k j = false := by
    cases roe with
    | standard dw ef eb f i =>
      have hef : ef = true := hs
      subst hef
      simp only [Roe.express] at f1
      obtain ⟨⟨m, mon⟩, g1, g2⟩ := bind_eq_ok f1
      injection g2 with g2
      injection g2 with g3 g4
      injection g4 with g4 _
      obtain ⟨a, -, -, r, -, q0, q⟩ := roeExpress_ok g1
      refine ⟨by rw [← g3, ← g4, q0, q], ?_⟩
      simp only [Roe.save] at f2
      unfold roeSave at f2
      rw [if_pos rfl] at f2
      injection f2 with f2
      intro k j
      rw [← f2]
    | injection dw n eb f i =>
      simp only [Roe.express] at f1
      obtain ⟨⟨⟨m, mon⟩, n'⟩, g1, g2⟩ := bind_eq_ok f1
      injection g2 with g2
      injection g2 with g3 g4
      injection g4 with g4 _
      obtain ⟨a, q1, q2, q3⟩ := injectionExpress_ok g1
      refine ⟨by rw [← g3, ← g4, q2, q3], ?_⟩
      simp only [Roe.save] at f2
      injection f2 with f2
      intro k j
      rw [← f2]
      rfl
    | pumping dw n ef i => exact hs.elim
  refine ⟨⟨by rw [f3], ?_, ?_, ?_, hp, f7, hnc.1, hnc.1 ▸ hmon, hnc.2, f8.trans hb⟩, ?_⟩
  · rw [f4]; cases roe <;> rfl
  · rw [f5, f4]; exact (Fp.exact_positiveIndices _).symm
  · rw [f6]; exact (Fp.exact_positiveIndices _).symm
  · cases roe with
    | standard => rfl
    | injection => rfl
    | pumping => exact hs.elim

/-! ### C67: memory safety whatever the rounding -/

/-- For every lawful arithmetic, instant capture and elapsed-time traps: no read or write outside an array, an
`IndexError` only if there are numbers that cannot be compared, a `TypeError` only with elapsed-time traps (C23), and
no other exception. -/
theorem C67_safe {A : Arith F} (hA : A.Lawful) (img : Image F) (ccd : CcdView F) (groups : List (Group F))
    (cfg : ClockCfg F) (roe : Roe ℚ) (rows columns : List ℕ) (hcfg : Fp.ShapeOf A cfg roe ccd rows)
    (hrows : ∀ w ∈ rows, w < img.nr) (hlow : ∀ w ∈ rows, ∀ z ∈ roe.accessed, 0 ≤ (w : ℤ) + z)
    (hcols : ∀ c ∈ columns, c < img.nc) (hg : ∀ g ∈ groups, Fp.notSlow g.kind)
    (hfill : ∀ ph ∈ cfg.phases, Fp.FillOk A (ccd.fill ph)) :
    match Fp.clockCharge A img ccd groups cfg (nPadding roe.accessed) (cfg.expr.nc * cfg.steps.length) columns with
    | .ok out => out.nr = img.nr ∧ out.nc = img.nc
    | .error e => (e = .indexError ∧ ¬ A.NoNaN) ∨ (e = .typeError ∧ ∃ g ∈ groups, Fp.isTrack g.kind) := by
  have hR := hcfg.inRange img.nr hrows hlow
  have key := Fp.loops_safe (T := ∃ g ∈ groups, Fp.isTrack g.kind) hA (C := img.nc) hR hfill hcfg.schedule hcfg.between columns hcols
    (Fp.pad A img (nPadding roe.accessed), Fp.newATM A groups ccd.fractions (cfg.expr.nc * cfg.steps.length))
    ⟨rfl, rfl, Fp.dataOk_new groups ccd.fractions fun g h => ⟨hg g h, fun ht => ⟨g, h, ht⟩⟩, fun d hd => by cases hd⟩
  unfold Fp.clockCharge
  cases hl : Fp.clockLoops A (Fp.atmSys A ccd.fill) cfg columns
      (Fp.pad A img (nPadding roe.accessed), Fp.newATM A groups ccd.fractions (cfg.expr.nc * cfg.steps.length)) with
  | error e => rw [hl] at key; exact key
  | ok v =>
    rw [hl] at key
    obtain ⟨out, a⟩ := v
    obtain ⟨k1, k2, -⟩ := key
    change out.nr - nPadding roe.accessed = img.nr ∧ out.nc = img.nc
    simp only at k1 k2
    exact ⟨by omega, k2⟩

/-- In double precision: the compiled loops never leave their arrays, whatever the image contains. -/
theorem C67_double (sum : List B64 → B64) (img : Image B64) (ccd : CcdView B64) (groups : List (Group B64))
    (cfg : ClockCfg B64) (roe : Roe ℚ) (rows columns : List ℕ) (hcfg : Fp.ShapeOf (B64.arith sum) cfg roe ccd rows)
    (hrows : ∀ w ∈ rows, w < img.nr) (hlow : ∀ w ∈ rows, ∀ z ∈ roe.accessed, 0 ≤ (w : ℤ) + z)
    (hcols : ∀ c ∈ columns, c < img.nc) (hg : ∀ g ∈ groups, Fp.notSlow g.kind)
    (hfill : ∀ ph ∈ cfg.phases, Fp.FillOk (B64.arith sum) (ccd.fill ph)) :
    match Fp.clockCharge (B64.arith sum) img ccd groups cfg (nPadding roe.accessed) (cfg.expr.nc * cfg.steps.length)
      columns with
    | .ok out => out.nr = img.nr ∧ out.nc = img.nc
    | .error e => e = .indexError ∨ (e = .typeError ∧ ∃ g ∈ groups, Fp.isTrack g.kind) := by
  have := C67_safe (B64.lawful sum) img ccd groups cfg roe rows columns hcfg hrows hlow hcols hg hfill
  revert this
  cases Fp.clockCharge (B64.arith sum) img ccd groups cfg (nPadding roe.accessed) (cfg.expr.nc * cfg.steps.length)
    columns with
  | ok out => exact id
  | error e => exact fun h => h.imp And.left id

/-- The well filling function of the code is one that `C67_double` allows. -/
theorem C67_well_filling (sum : List B64 → B64) (pow : B64 → B64 → B64) (empty full beta : B64)
    (he : B64.le B64.zero empty = true) (hf : B64.lt B64.zero (B64.sub full empty) = true)
    (hp : ∀ x, B64.lt x B64.zero = false → B64.lt B64.zero x = false → B64.lt B64.zero (pow x beta) = false) :
    Fp.FillOk (B64.arith sum) (Fp.wellFill (B64.arith sum) pow empty full beta) :=
  B64.fillOk_wellFill sum pow he hf hp

/-- Whatever the arithmetic, no pixel becomes negative. -/
theorem C67_nonneg (A : Arith F) (h0 : A.lt A.zero A.zero = false) (img out : Image F) (ccd : CcdView F)
    (groups : List (Group F)) (cfg : ClockCfg F) (padding transfers : ℕ) (columns : List ℕ)
    (hi : ∀ r < img.nr, ∀ c < img.nc, A.lt (img.px r c) A.zero = false)
    (h : Fp.clockCharge A img ccd groups cfg padding transfers columns = .ok out) :
    ∀ r < out.nr, ∀ c < out.nc, A.lt (out.px r c) A.zero = false := by
  unfold Fp.clockCharge at h
  obtain ⟨⟨o, a⟩, h1, h⟩ := bind_eq_ok h
  injection h with h
  subst h
  have := Fp.clockLoops_kept (A := A) _ cfg columns
    (P := fun i => i.nc = img.nc ∧ ∀ r < i.nr, ∀ c < i.nc, A.lt (i.px r c) A.zero = false) ?_ _ _ ?_ h1
  · intro r hr c hc
    have hr : r < o.nr - padding := hr
    exact this.2 r (by simp only; omega) c hc
  · intro c _ i ⟨hn, hP⟩ r old delta hr hc _
    refine ⟨hn, fun r' hr' c' hc' => ?_⟩
    unfold Fp.set
    simp only
    split
    · split
      · exact h0
      · rename_i hl; simpa using hl
    · exact hP r' hr' c' hc'
  · refine ⟨rfl, fun r hr c hc => ?_⟩
    unfold Fp.pad
    simp only
    split
    · rename_i hl; exact hi r hl c hc
    · exact h0

/-! ### C68: structure that rounding cannot break -/

/-- Whatever the arithmetic and whatever the traps, a column comes out, bit for bit, as if it were alone in the image. -/
theorem C68_columns (A : Arith F) (img img' out : Image F) (ccd : CcdView F) (groups : List (Group F))
    (cfg : ClockCfg F) (padding transfers : ℕ) (columns : List ℕ) (hb : cfg.emptyBetween = true)
    (hnd : columns.Nodup) (c : ℕ) (hc : c ∈ columns) (hnr : img'.nr = img.nr) (hin : c < img.nc) (hin' : c < img'.nc)
    (hag : ∀ r, img'.px r c = img.px r c)
    (h : Fp.clockCharge A img ccd groups cfg padding transfers columns = .ok out) :
    ∃ out', Fp.clockCharge A img' ccd groups cfg padding transfers [c] = .ok out' ∧ ∀ r, out'.px r c = out.px r c := by
  unfold Fp.clockCharge at h
  obtain ⟨⟨o, a⟩, h1, h⟩ := bind_eq_ok h
  injection h with h
  subst h
  have hpad : Fp.AgreeOn c (Fp.pad A img padding) (Fp.pad A img' padding) := by
    refine ⟨by simp [Fp.pad, hnr], by simp [Fp.pad, hin, hin'], fun r => ?_⟩
    simp only [Fp.pad, hnr, hag]
  obtain ⟨⟨o', a'⟩, g1, g2⟩ := Fp.columns_split ccd.fill cfg hb hnd (Fp.fresh_new groups ccd.fractions transfers) h1
    (Fp.fresh_new groups ccd.fractions transfers) c hc hpad
  refine ⟨{ o' with nr := o'.nr - padding }, ?_, fun r => g2.2.2 r⟩
  unfold Fp.clockCharge
  rw [g1]
  rfl

/-- Columns outside the window keep every bit. -/
theorem C68_untouched (A : Arith F) (img out : Image F) (ccd : CcdView F) (groups : List (Group F))
    (cfg : ClockCfg F) (padding transfers : ℕ) (columns : List ℕ) (c : ℕ) (hc : c ∉ columns)
    (h : Fp.clockCharge A img ccd groups cfg padding transfers columns = .ok out) :
    ∀ r < img.nr, out.px r c = img.px r c := by
  unfold Fp.clockCharge at h
  obtain ⟨⟨o, a⟩, h1, h⟩ := bind_eq_ok h
  injection h with h
  subst h
  have := Fp.clockLoops_frame _ cfg hc h1
  intro r hr
  have e := this.2.2 r
  simp only [Fp.pad, if_pos hr] at e
  exact e

/-- A clock sequence with the integers of a readout with forced release: nothing is released towards the readout, and
either there is one phase only or products with zero do not depend on the other factor. -/
theorem C68_forward (A : Arith F) (seq : List (List (Phase F))) (roe : Roe ℚ)
    (hs : Fp.skeleton seq = Fp.skeleton roe.clockSequence) (hf : roe.force = true)
    (h1 : roe.nPhases = 1 ∨ ∀ u v, A.mul u A.zero = A.mul v A.zero) : Fp.Forward A seq := by
  intro step phase ph hp
  have := Fp.skeleton_look hs step phase
  rw [hp] at this
  cases hq : (roe.clockSequence[step]?.bind fun l => l[phase]?) with
  | none => rw [hq] at this; cases this
  | some q =>
    rw [hq] at this
    simp only [Option.map_some, Option.some.injEq, Prod.mk.injEq] at this
    obtain ⟨e1, e2, e3⟩ := this
    obtain ⟨g1, g2⟩ := forward_of_force roe hf step phase q hq
    refine ⟨?_, fun o ho => ?_⟩
    · by_cases hh : q.isHigh = true
      · left
        rw [e2, g1 hh]
      · rcases h1 with h1 | h1
        · exfalso
          cases hl : roe.clockSequence[step]? with
          | none => rw [hl] at hq; cases hq
          | some l =>
            rw [hl] at hq
            have h2 : l[phase]? = some q := hq
            have hm := List.mem_of_getElem? hl
            unfold Roe.clockSequence at hm
            obtain ⟨st, p, hst, hph, rfl⟩ := mem_genClockSequence hm (List.mem_of_getElem? h2)
            rw [h1] at hph hh
            have : p = 0 := by omega
            subst this
            refine hh ?_
            simp [genPhase, highPhase]
        · exact Or.inr ⟨by rw [e1]; simpa using hh, h1⟩
    · have hx' : o.1 ∈ q.release.map Prod.fst := e3 ▸ List.mem_map_of_mem ho
      obtain ⟨y, hy, hxy⟩ := List.mem_map.1 hx'
      rw [← hxy]
      exact g2 y hy

/-- Whatever the arithmetic and whatever the traps: the rows up to `R` of the result depend, bit for bit, only on the
rows up to `R` of the image. -/
theorem C68_causality (A : Arith F) (i j oi oj : Image F) (ccd : CcdView F) (groups : List (Group F))
    (cfg : ClockCfg F) (padding transfers : ℕ) (columns : List ℕ) (hb : cfg.emptyBetween = true)
    (hF : Fp.Forward A cfg.clockSeq) (hw : cfg.rowWindow.Pairwise (· < ·)) (hS : ∀ k j, cfg.saveMat.e k j = false)
    (hnr : i.nr = j.nr) (R : ℕ) (hR : R < i.nr) (hag : ∀ r ≤ R, ∀ c, i.px r c = j.px r c)
    (hi : Fp.clockCharge A i ccd groups cfg padding transfers columns = .ok oi)
    (hj : Fp.clockCharge A j ccd groups cfg padding transfers columns = .ok oj) :
    ∀ r ≤ R, ∀ c, oi.px r c = oj.px r c := by
  unfold Fp.clockCharge at hi hj
  obtain ⟨⟨o, a⟩, h1, hi⟩ := bind_eq_ok hi
  obtain ⟨⟨o', a'⟩, h2, hj⟩ := bind_eq_ok hj
  injection hi with hi
  injection hj with hj
  subst hi hj
  refine Fp.clockLoops_causal ccd.fill cfg hb hF hw ?_ R columns _ _ ?_ (Fp.fresh_new groups ccd.fractions transfers)
    (Fp.fresh_new groups ccd.fractions transfers) _ _ h1 h2
  · intro k j' hk
    rw [hS] at hk; cases hk
  · intro r hr c
    simp only [Fp.pad]
    rw [if_pos (by omega), if_pos (by omega), hag r hr c]

/-! ### examples in double precision -/

/-- The double nearest to a rational. -/
def dbl (q : ℚ) : B64 := B64.pack q

/-- Doubles with numpy's order of addition for short arrays. -/
def dblArith : Arith B64 := B64.arith B64.sumLeft

def exDblGroups : List (Group B64) := [⟨1, fun _ => dbl 10, .instant fun _ _ => dbl (1 / 2)⟩]

/-- A well filling with notch 0, full well 100 and power 1. -/
def exDblFill : B64 → B64 := Fp.wellFill dblArith (fun x _ => x) B64.zero (dbl 100) B64.one

/-- One phase, express 1, `n` rows. -/
def exDblCfg (n : ℕ) : ClockCfg B64 where
  expr := ⟨1, n, fun _ j => dbl (j + 1)⟩
  monitor := ⟨1, n, fun _ _ => true⟩
  saveMat := ⟨1, n, fun _ _ => false⟩
  clockSeq := [[⟨true, 0, [(0, B64.one)]⟩]]
  dwell := [B64.one]
  steps := [0]
  phases := [0]
  rowWindow := List.range n
  emptyBetween := true

def exDblCcd : CcdView B64 := ⟨[B64.one], fun _ => exDblFill⟩

def exDblRoe : Roe ℚ := .standard [1] true true true false

theorem exDbl_shape (n : ℕ) : Fp.ShapeOf dblArith (exDblCfg n) exDblRoe exDblCcd (List.range n) where
  seq := by
    change Fp.skeleton [[⟨true, 0, [(0, B64.one)]⟩]] = _
    decide +kernel
  dwell := rfl
  steps := by
    change [0] = Fp.positiveIndices dblArith [B64.one]
    decide +kernel
  phases := by
    change [0] = Fp.positiveIndices dblArith [B64.one]
    decide +kernel
  nPhases := le_rfl
  window := rfl
  monitor := rfl
  columns := by simp [exDblCfg]
  saves _ _ := rfl
  between := rfl

theorem exDbl_fill : Fp.FillOk dblArith exDblFill :=
  C67_well_filling _ _ _ _ _ (by decide +kernel) (by decide +kernel) fun _ _ h => h

/-- One column. -/
def exDblImage (l : List B64) : Image B64 := ⟨l.length, 1, fun r _ => l.getD r B64.zero⟩

/-- The column of a result. -/
def colOf (x : Except Err (Image B64)) : Except Err (List B64) := x.map fun i => (List.range i.nr).map fun r => i.px r 0

/-- The hypotheses of `C67_double` hold for any image with at least `n` rows. -/
example (img : Image B64) (n : ℕ) (hn : n ≤ img.nr) (columns : List ℕ) (hc : ∀ c ∈ columns, c < img.nc) :
    match Fp.clockCharge dblArith img exDblCcd exDblGroups (exDblCfg n) 0 (n * 1) columns with
    | .ok out => out.nr = img.nr ∧ out.nc = img.nc
    | .error e => e = .indexError ∨ (e = .typeError ∧ ∃ g ∈ exDblGroups, Fp.isTrack g.kind) :=
  C67_double B64.sumLeft img exDblCcd exDblGroups (exDblCfg n) exDblRoe (List.range n) columns (exDbl_shape n)
    (fun w hw => (List.mem_range.1 hw).trans_le hn) (fun w _ z hz => by
      have : z = 0 := by
        have h : exDblRoe.accessed = [0, 0, 0] := by decide +kernel
        rw [h] at hz; simpa using hz
      omega) hc (fun g hg => by
      rcases List.mem_singleton.1 hg with rfl
      trivial) fun _ _ => exDbl_fill

/-- 0.1 + 0.2 is not 0.3. -/
example : B64.add (dbl (1 / 10)) (dbl (2 / 10)) ≠ dbl (3 / 10) := by decide +kernel

/-- A run: the trail is not what exact arithmetic gives, but what double precision gives. -/
example : colOf (Fp.clockCharge dblArith (exDblImage [dbl 80, dbl (1 / 10), dbl (3 / 10)]) exDblCcd exDblGroups
      (exDblCfg 3) 0 3 [0]) =
    .ok [dbl 72, dbl (4329085141809889 / 562949953421312), dbl (1758409363883557 / 281474976710656)] := by
  decide +kernel

/-- `IndexError` is possible: a NaN after a pixel that left electrons in the traps. -/
theorem C67_nan_raises : colOf (Fp.clockCharge dblArith (exDblImage [dbl 80, .nan, dbl (3 / 10)]) exDblCcd exDblGroups
    (exDblCfg 3) 0 3 [0]) = .error .indexError := by
  decide +kernel

/-- A NaN in front of empty traps stays where it is, and an infinite pixel stays infinite. -/
example : colOf (Fp.clockCharge dblArith (exDblImage [.nan, dbl 0, .inf false]) exDblCcd exDblGroups
      (exDblCfg 3) 0 3 [0]) = .ok [.nan, dbl 0, .inf false] := by
  decide +kernel

/-- The sequence is a forward one in double precision. -/
example (n : ℕ) : Fp.Forward dblArith (exDblCfg n).clockSeq :=
  C68_forward dblArith _ exDblRoe (exDbl_shape n).seq rfl (Or.inl rfl)

/-- Three phases with forced release, rows as in `cfg`. -/
def exDblCfg3 : ClockCfg B64 where
  expr := ⟨1, 1, fun _ j => dbl (j + 1)⟩
  monitor := ⟨1, 1, fun _ _ => true⟩
  saveMat := ⟨1, 1, fun _ _ => false⟩
  clockSeq := (Roe.standard (K := ℚ) [1, 1, 1] true true true false).clockSequence.map fun l => l.map fun p =>
    ⟨p.isHigh, p.captureFrom, p.release.map fun x => (x.1, dbl x.2)⟩
  dwell := [B64.one, B64.one, B64.one]
  steps := [0, 1, 2]
  phases := [0, 1, 2]
  rowWindow := [0]
  emptyBetween := true

def exDblCcd3 : CcdView B64 := ⟨[dbl (1 / 4), dbl (1 / 4), dbl (1 / 2)], fun _ => exDblFill⟩

/-- With several phases a low phase multiplies the pixel behind by zero. Only row 0 is processed here, and the row
behind it is outside the window: if it is infinite or NaN the call raises, otherwise it returns. -/
theorem C68_several_phases_false :
    (∃ l, colOf (Fp.clockCharge dblArith (exDblImage [dbl 1, dbl 1, dbl 0]) exDblCcd3 exDblGroups exDblCfg3 1 3 [0]) =
      .ok l) ∧
    colOf (Fp.clockCharge dblArith (exDblImage [dbl 1, .inf false, dbl 0]) exDblCcd3 exDblGroups exDblCfg3 1 3 [0]) =
      .error .indexError ∧
    colOf (Fp.clockCharge dblArith (exDblImage [dbl 1, .nan, dbl 0]) exDblCcd3 exDblGroups exDblCfg3 1 3 [0]) =
      .error .indexError := by
  refine ⟨?_, by decide +kernel, by decide +kernel⟩
  have : colOf (Fp.clockCharge dblArith (exDblImage [dbl 1, dbl 1, dbl 0]) exDblCcd3 exDblGroups exDblCfg3 1 3 [0]) =
      .ok [dbl (4170807468812581 / 4503599627370496), dbl (2265871363497525 / 2251799813685248), dbl 0] := by
    decide +kernel
  exact ⟨_, this⟩

/-- because such products are not all the same number. -/
theorem C68_products_differ : ∃ u v, dblArith.mul u dblArith.zero ≠ dblArith.mul v dblArith.zero :=
  ⟨dbl 1, .inf false, by decide +kernel⟩

end Arctic
