import Verif.Model.FloatRoe
import Verif.Lemmas.FloatExact

/-!
# With exact arithmetic, `Verif.Model.FloatRoe` is `Verif.Model.Roe`
-/

set_option linter.unusedSectionVars false
set_option linter.unusedVariables false

namespace Arctic.Fp

/-- A map between two arithmetics that commutes with what the express matrix needs. -/
structure Hom {F G : Type} (A : Arith F) (B : Arith G) (f : F → G) : Prop where
  zero : f A.zero = B.zero
  one : f A.one = B.one
  add : ∀ a b, f (A.add a b) = B.add (f a) (f b)
  sub : ∀ a b, f (A.sub a b) = B.sub (f a) (f b)
  mul : ∀ a b, f (A.mul a b) = B.mul (f a) (f b)
  lt : ∀ a b, A.lt a b = B.lt (f a) (f b)

section hom
variable {F G : Type} {A : Arith F} {B : Arith G} {f : F → G}

/-- All entries converted. -/
def mapMat {F G : Type} (f : F → G) (m : Mat F) : Mat G := ⟨m.nr, m.nc, fun i j => f (m.e i j)⟩

theorem hom_cumsum0 (hf : Hom A B f) (m : Mat F) (j i : ℕ) : f (cumsum0 A m j i) = cumsum0 B (mapMat f m) j i := by
  induction i with
  | zero => rfl
  | succ i ih => rw [cumsum0, hf.add, ih]; rfl

theorem hom_ite (c : Bool) (a b : F) : f (if c then a else b) = if c then f a else f b := by split <;> rfl

theorem hom_clipSpan (hf : Hom A B f) (int : ℤ → F) (t0 span : ℤ) (x : F) :
    f (clipSpan A int t0 span x) = clipSpan B (fun z => f (int z)) t0 span (f x) := by
  unfold clipSpan
  simp only [hom_ite (f := f), hf.lt, hf.zero, hf.sub]

theorem hom_restrict (hf : Hom A B f) (int : ℤ → F) (m : Mat F) (tw : Option (List ℕ)) :
    (restrictTimeSpan A int m tw).map (mapMat f) = restrictTimeSpan B (fun z => f (int z)) (mapMat f m) tw := by
  cases tw with
  | none => rfl
  | some tw =>
    cases tw with
    | nil => rfl
    | cons t0 l =>
      obtain ⟨t1, h⟩ : ∃ t1, (t0 :: l).getLast? = some t1 := ⟨_, List.getLast?_eq_getLast_of_ne_nil (by simp)⟩
      simp only [restrictTimeSpan, List.head?_cons, h, Except.map, mapMat]
      congr 2
      funext i j
      split
      · rw [hom_clipSpan hf, hom_cumsum0 hf]; rfl
      · rw [hf.sub, hom_clipSpan hf, hom_clipSpan hf, hom_cumsum0 hf, hom_cumsum0 hf]; rfl

theorem hom_truncate (hf : Hom A B f) (m x : F) : f (truncate A m x) = truncate B (f m) (f x) := by
  unfold truncate
  simp only [hom_ite (f := f), hf.lt, hf.zero]

theorem hom_base (hf : Hom A B f) (int : ℤ → F) (m : F) (N e : ℕ) :
    mapMat f (expressBase A int m N e) = expressBase B (fun z => f (int z)) (f m) N e := by
  unfold mapMat expressBase
  simp only [hom_truncate hf, hf.sub, hf.mul]

theorem hom_nNonzero (hf : Hom A B f) (m : Mat F) (k : ℕ) : nNonzero A m k = nNonzero B (mapMat f m) k := by
  unfold nNonzero mapMat
  simp only [hf.lt, hf.zero]

theorem hom_insert (hf : Hom A B f) (big small : Mat F) :
    mapMat f (insertRows A big small) = insertRows B (mapMat f big) (mapMat f small) := by
  unfold insertRows
  have : ∀ (l : List ℕ) (cur : ℕ → ℕ → F),
      (fun i j => f (l.foldl (fun cur k => fun i j =>
        if i = nNonzero A small k ∧ 1 ≤ j then A.add (big.e i j) (small.e k (j - 1)) else cur i j) cur i j)) =
      l.foldl (fun cur k => fun i j =>
        if i = nNonzero B (mapMat f small) k ∧ 1 ≤ j then B.add (f (big.e i j)) (f (small.e k (j - 1))) else cur i j)
        (fun i j => f (cur i j)) := by
    intro l
    induction l with
    | nil => intro cur; rfl
    | cons k l ih =>
      intro cur
      rw [List.foldl_cons, List.foldl_cons, ih]
      congr 1
      funext i j
      rw [hom_nNonzero hf]
      split
      · rw [hf.add]
      · rfl
  unfold mapMat at this ⊢
  simp only [this]

theorem hom_flip (hf : Hom A B f) (N : ℕ) : mapMat f (flipIdentity A N) = flipIdentity B N := by
  unfold mapMat flipIdentity
  simp only
  congr 1
  funext i j
  split
  · exact hf.one
  · exact hf.zero

theorem hom_full (hf : Hom A B f) (int : ℤ → F) (mult : ℕ → ℕ → F) (ef : Bool) (n e o : ℕ) :
    mapMat f (expressFull A int mult ef n e o) =
      expressFull B (fun z => f (int z)) (fun a b => f (mult a b)) ef n e o := by
  unfold expressFull
  simp only
  by_cases h : ef = true ∧ effectiveExpress e (n + o) <
      (if ef = true ∧ effectiveExpress e (n + o) < n then n - 1 else n)
  · rw [if_pos h, if_pos h, hom_insert hf, hom_flip hf, hom_base hf]
  · rw [if_neg h, if_neg h, hom_base hf]

theorem map_selectCols (m : Mat F) (w : List ℕ) : (selectCols m w).map (mapMat f) = selectCols (mapMat f m) w := by
  unfold selectCols
  change (if _ then _ else _ : Except Err (Mat F)).map _ = if w.all (· < m.nc) then _ else _
  split <;> rfl

theorem hom_roeExpressOf (hf : Hom A B f) (int : ℤ → F) (mult : ℕ → ℕ → F) (ef : Bool) (w : List ℕ) (e o : ℕ)
    (tw : Option (List ℕ)) :
    (roeExpressOf A int mult ef w e o tw).map (fun x => (mapMat f x.1, x.2)) =
      roeExpressOf B (fun z => f (int z)) (fun a b => f (mult a b)) ef w e o tw := by
  unfold roeExpressOf
  cases nPixelsOfWindow w with
  | error e => rfl
  | ok n =>
    simp only [bind, Except.bind]
    rw [← hom_full hf, ← hom_restrict hf]
    have : (⟨(expressFull A int mult ef n e o).nr, (expressFull A int mult ef n e o).nc,
        fun i j => A.lt A.zero ((expressFull A int mult ef n e o).e i j)⟩ : Mat Bool) =
        ⟨(mapMat f (expressFull A int mult ef n e o)).nr, (mapMat f (expressFull A int mult ef n e o)).nc,
        fun i j => B.lt B.zero ((mapMat f (expressFull A int mult ef n e o)).e i j)⟩ := by
      simp only [mapMat, hf.lt, hf.zero]
    rw [this]
    cases selectCols (dropCols _ o) w with
    | error e => rfl
    | ok mon =>
      simp only
      cases restrictTimeSpan A int (expressFull A int mult ef n e o) tw with
      | error e => rfl
      | ok m =>
        simp only [Except.map]
        have h2 : dropCols (mapMat f m) o = mapMat f (dropCols m o) := rfl
        rw [h2, ← map_selectCols]
        cases selectCols (dropCols m o) w with
        | error e => rfl
        | ok m => rfl

end hom

section exact
variable {K : Type} [Field K] [LinearOrder K] [IsStrictOrderedRing K]

local notation "X" => Arith.exact K

theorem hom_int : Hom Arith.int X (fun z : ℤ => (z : K)) where
  zero := Int.cast_zero
  one := Int.cast_one
  add := Int.cast_add
  sub := Int.cast_sub
  mul := Int.cast_mul
  lt a b := by simp [Arith.int, Arith.exact]

theorem exact_cumsum0 (m : Mat K) (i j : ℕ) : cumsum0 X m j i = Arctic.cumsum0 m i j := by
  unfold Arctic.cumsum0
  induction i with
  | zero => simp [cumsum0]
  | succ i ih =>
    rw [cumsum0, ih, List.range_succ (n := i + 1), List.map_append, List.sum_append]
    simp [Arith.exact]

theorem exact_restrict (m : Mat K) (tw : Option (List ℕ)) :
    restrictTimeSpan X (fun z : ℤ => (z : K)) m tw = Arctic.restrictTimeSpan m tw := by
  cases tw with
  | none => rfl
  | some tw =>
    cases tw with
    | nil => rfl
    | cons t0 l =>
        obtain ⟨t1, h⟩ : ∃ t1, (t0 :: l).getLast? = some t1 := ⟨_, List.getLast?_eq_getLast_of_ne_nil (by simp)⟩
        simp only [restrictTimeSpan, Arctic.restrictTimeSpan, List.head?_cons, h]
        congr 2
        have : ∀ i j, clipSpan X (fun z : ℤ => (z : K)) t0 ((t1 : ℤ) - (t0 : ℤ) + 1) (cumsum0 X m j i) =
            (let x := Arctic.cumsum0 m i j - (t0 : K)
             let x := if x < 0 then 0 else x
             if x > ((((t1 : ℤ) - (t0 : ℤ) + 1) : ℤ) : K) then ((((t1 : ℤ) - (t0 : ℤ) + 1) : ℤ) : K) else x) := by
          intro i j
          unfold clipSpan
          rw [exact_cumsum0]
          simp only [Arith.exact, decide_eq_true_eq, Int.cast_natCast, gt_iff_lt]
        funext i j
        simp only [this]
        rfl

theorem exact_base (b : Bool) (N e : ℕ) :
    expressBase X (fun z : ℤ => (z : K)) (maxMultiplier b N e) N e = Arctic.expressBase b N e := by
  unfold expressBase Arctic.expressBase truncate Arctic.truncate
  simp [Arith.exact]

theorem exact_full (ef b : Bool) (n e o : ℕ) :
    expressFull X (fun z : ℤ => (z : K)) (maxMultiplier b) ef n e o = Arctic.expressFull ef b n e o := by
  unfold expressFull Arctic.expressFull
  simp only [exact_base]
  rfl

theorem exact_roeExpressOf (ef b : Bool) (w : List ℕ) (e o : ℕ) (tw : Option (List ℕ)) :
    roeExpressOf X (fun z : ℤ => (z : K)) (maxMultiplier b) ef w e o tw = Arctic.roeExpress ef b w e o tw := by
  unfold roeExpressOf Arctic.roeExpress
  simp only [exact_full, exact_restrict]
  rfl

theorem exact_roeExpress (ef b : Bool) (w : List ℕ) (e o : ℕ) (tw : Option (List ℕ)) :
    roeExpress X (Conv.exact K) ef b w e o tw = Arctic.roeExpress ef b w e o tw := by
  unfold roeExpress
  cases b with
  | false =>
    rw [if_neg (by simp), ← exact_roeExpressOf]
    have : (fun a b : ℕ => (X).div ((Conv.exact K).int a) ((Conv.exact K).int b)) = maxMultiplier false := by
      funext a b
      simp [Arith.exact, Conv.exact, maxMultiplier]
    rw [this]
    rfl
  | true =>
    rw [if_pos rfl, ← exact_roeExpressOf]
    have h := hom_roeExpressOf (hom_int (K := K)) id (Conv.exact K).ceilDiv ef w e o tw
    have h2 : (fun a b : ℕ => (((Conv.exact K).ceilDiv a b : ℤ) : K)) = maxMultiplier true := by
      funext a b
      simp [Conv.exact, maxMultiplier]
    rw [h2] at h
    simp only [id] at h
    rw [← h]
    cases roeExpressOf Arith.int id (Conv.exact K).ceilDiv ef w e o tw <;> rfl

theorem exact_injectionExpress (b : Bool) (n : Option ℕ) (w : List ℕ) (e o : ℕ) (tw : Option (List ℕ)) :
    injectionExpress X (Conv.exact K) b n w e o tw = Arctic.injectionExpress b n w e o tw := by
  unfold injectionExpress Arctic.injectionExpress
  have h : (Conv.exact K).int = fun z : ℤ => (z : K) := rfl
  simp only [h, exact_restrict, Int.cast_natCast]
  rfl

theorem exact_pumpingExpress (ef b : Bool) (n p e : ℕ) :
    pumpingExpress X (Conv.exact K) ef b n p e = Arctic.pumpingExpress ef b n p e := by
  unfold pumpingExpress Arctic.pumpingExpress
  have : pumpMultipliers X (Conv.exact K) ef b n e = Arctic.pumpMultipliers ef b n e := by
    unfold pumpMultipliers Arctic.pumpMultipliers
    simp only [Conv.exact, Int.cast_natCast]
    rfl
  rw [this]
  rfl

theorem shape_fields (r : Roe K) : (shape r).emptyBetween = r.emptyBetween ∧ (shape r).isPumping = r.isPumping ∧
    (shape r).force = r.force ∧ (shape r).nSteps = r.nSteps ∧ (shape r).nPhases = r.nPhases ∧ dwell r = r.dwell := by
  cases r <;> simp [shape, Roe.emptyBetween, Roe.isPumping, Roe.force, Roe.nSteps, Roe.nPhases, Roe.dwell, dwell]

theorem exact_clockSequence (r : Roe K) : clockSequence X (Conv.exact K) r = r.clockSequence := by
  obtain ⟨-, -, h1, h2, h3, -⟩ := shape_fields r
  unfold clockSequence Roe.clockSequence genClockSequence
  rw [h1, h2, h3]
  simp only [List.map_map]
  refine List.map_congr_left fun step _ => ?_
  simp only [Function.comp]
  rw [List.map_map]
  refine List.map_congr_left fun phase _ => ?_
  simp only [Function.comp, genPhase, List.map_map, List.length_map, List.length_range]
  congr 1
  refine List.map_congr_left fun i _ => ?_
  simp [Arith.exact, Conv.exact]

theorem accessed_shape (r : Roe K) : (shape r).accessed = r.accessed := by
  rw [Roe.accessed, Roe.accessed, ← exact_clockSequence r]
  unfold clockSequence pixelsAccessed
  simp only [List.flatMap_map, List.map_map]
  rfl

theorem exact_clockCfg (r : Roe K) (ccd : CcdView K) (e o : ℕ) (rows : List ℕ) (tw : Option (List ℕ)) :
    clockCfg X (Conv.exact K) r ccd e o rows tw = Arctic.clockCfg r ccd e o rows tw := by
  obtain ⟨h0, -, -, -, -, h6⟩ := shape_fields r
  unfold clockCfg Arctic.clockCfg
  have hE : expressOf X (Conv.exact K) r rows e o tw = r.express rows e o tw := by
    cases r <;> simp only [expressOf, Roe.express, exact_roeExpress, exact_injectionExpress, exact_pumpingExpress]
  have hS : ∀ m, saveOf X r m = r.save m := by
    intro m
    cases r <;> rfl
  rw [hE, exact_clockSequence, h0, h6]
  simp only [hS]
  rfl

/-- The whole function with exact arithmetic. -/
theorem exact_clockDirection (img : Image K) (ccd : CcdView K) (r : Roe K) (groups : List (Arctic.Group K))
    (e o : ℕ) (rows columns : List ℕ) (tw : Option (List ℕ)) :
    clockDirection X (Conv.exact K) img ccd r groups e o rows columns tw =
      Arctic.clockCharge img ccd r groups e o rows columns tw := by
  unfold clockDirection
  rw [exact_clockCfg]
  cases h : Arctic.clockCfg r ccd e o rows tw with
  | error e => unfold Arctic.clockCharge; rw [h]; rfl
  | ok v =>
    obtain ⟨cfg, roe'⟩ := v
    rw [exact_clockCharge img ccd r groups e o rows columns tw h, accessed_shape]
    have : maxNTransfers r cfg = Arctic.maxNTransfers r cfg := by
      unfold maxNTransfers Arctic.maxNTransfers
      rw [(shape_fields r).2.1]
    simp only [bind, Except.bind, this]
    cases clockCharge X img ccd groups cfg (nPadding r.accessed) (Arctic.maxNTransfers r cfg) columns <;> rfl

end exact
end Arctic.Fp
